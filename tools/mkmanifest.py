#!/usr/bin/env python3
"""Writes MANIFEST.json. One line per property: id, status, theorems, note."""
import json
C = []
def claim(p, status, thms, note):
    C.append({"property": p, "status": status, "theorems": ["Tommy." + t for t in thms.split()], "note": note})

claim("C01", "proved", "C01_list_sequence C01_list_history", "Refinement for all histories on any number of lists; includes sort with arbitrary comparators and foreign writes.")
claim("C02", "proved", "C02_list_links", "In every reachable state.")
claim("C03", "proved", "C03_list_sort_sorted", "Any length, any memory layout, any total preorder.")
claim("C04", "proved", "C04_list_sort_stable", "")
claim("C05", "proved", "C05_list_sort_any_cmp", "")
claim("C06", "proved", "C06_list_foreach C06_list_foreach_arg", "Callback is an arbitrary memory transformer leaving unvisited nodes alone.")
claim("C07", "proved", "C07_list_frame", "")
claim("C08", "partial", "C08_hashtable_partial C08_hashtable_false", "Missing: initial sizes over 2^60, for which it fails (C18_init_buckets_false). Proved up to 2^60, see C50.")
claim("C09", "proved", "C09_hashdyn", "")
claim("C10", "proved", "C10_hashlin", "")
claim("C11", "partial", "C11_bucket_hashtable_partial C11_bucket_hashdyn C11_bucket_hashlin C11_bucket_hashtable_false", "False for a tommy_hashtable initialised with more than 2^60 buckets (negation proved). Proved for hashdyn, hashlin and for hashtable up to that size.")
claim("C12", "partial", "C12_foreach_hashtable_partial C12_foreach_hashdyn C12_foreach_hashlin C12_foreach_arg_hashtable_partial C12_foreach_arg_hashdyn C12_foreach_arg_hashlin C12_foreach_hashtable_false", "False for a tommy_hashtable initialised with more than 2^60 and up to 2^63 buckets (negation proved). Proved for hashdyn, hashlin and for hashtable up to 2^60. The callback is an arbitrary memory transformer.")
claim("C13", "proved", "C13_hashdyn_load", "")
claim("C14", "partial", "C14_hashlin_load_partial C14_hashlin_load_false", "The first bound is false by one element (C14_hashlin_load_tight reaches 2n = bucket_max + 2). The exact bounds are C51.")
claim("C15", "partial", "C15_hashlin_constant_work_false C15_hashlin_no_constant C15_hashlin_work_partial", "False: an insert can split 2^k - 8 buckets for each k from 6 to 57, so no constant below 2^56 is a bound. True part: at most 8 except for an insert in the shrinking state.")
claim("C16", "proved", "C16_hashlin_amortized", "4 for each insert and 8 for each remove.")
claim("C17", "proved", "C17_done_hashtable C17_done_hashdyn C17_done_hashlin", "")
claim("C18", "partial", "C18_init_buckets_partial C18_init_buckets_false", "The property is false for every n > 2^60 (negation proved); proved for n <= 2^60.")
claim("C45", "proved", "C45_ilog2_u32 C45_ilog2_u64 C45_ctz_u32 C45_ctz_u64 C45_gcc_u32 C45_gcc_u64", "")
claim("C46", "proved", "C46_roundup_u32 C46_roundup_u64 C46_roundup C46_roundup_wraps C46_roundup_wraps_u32", "")
claim("C47", "proved", "C47_haszero", "")
claim("C48", "proved", "C48_frame_hashtable C48_frame_hashdyn C48_frame_hashlin", "")
claim("C49", "proved", "C49_usage_hashtable C49_usage_hashdyn C49_usage_hashlin C49_usage_hashtable_all_partial C49_usage_hashdyn_partial C49_usage_hashlin_partial", "Exact in a memory of 2^sizeBit bytes (2^32 or 2^64), where the vectors and the nodes together cannot exceed that (the `_partial` theorems: modulo 2^64 in any memory of the model).")
claim("C40", "proved", "C40_inthash_u32 C40_inthash_u64", "xorshift steps are injective by induction on bits; the arithmetic steps are multiplications by odd constants with explicit inverses")
claim("C41", "proved", "C41_hash_u32 C41_hash_u64 C41_only_key", "against an independent definition of lookup3 on byte lists (checked on its published test vectors); memory out of the key may be unreadable")
claim("C42", "proved", "C42_low_bits", "")
claim("C43", "proved", "C43_strhash C43_only_string", "")
claim("C44", "partial", "C44_overread C44_false C44_partial", "false of the code: up to 3 bytes after the terminator are read unless the length is 3 modulo 4; proved the negation and the exact bound")
claim("C19", "partial", "C19_array_partial C19_array_false", "False for sizes over 2^60: no memory of 2^64 bytes has room for the segments, calloc fails and the library does not check (negation proved in every state). True for all the sizes with segments up to 2^64 bytes: init succeeds and every history is correct, with foreign writes between the calls.")
claim("C20", "partial", "C20_array_all_partial C20_arrayof_all_partial C20_array_partial C20_arrayof_partial C20_arrayblk_partial C20_arrayblkof_partial C20_C21_arrayblk_false C20_C21_arrayblkof_false", "For any two states, the second one later. For array and arrayof with any argument and any element size, in a memory of 2^64 bytes. False for arrayblk and arrayblkof after a grow with count above 2^64 - 4096, where count + 4095 overflows (negation proved); true up to that.")
claim("C21", "partial", "C21_array_all_partial C21_arrayof_all_partial C21_array_partial C21_arrayof_partial C21_arrayblk_partial C21_arrayblkof_partial C20_C21_arrayblk_false C20_C21_arrayblkof_false", "Also that no call touches the memory of the rest of the program. For array and arrayof with any argument and any element size, in a memory of 2^64 bytes. False for arrayblk and arrayblkof after a grow with count above 2^64 - 4096, where count + 4095 overflows (negation proved); true up to that.")
claim("C22", "partial", "C22_arrayof_partial C22_arrayof_false", "False when the elements exceed 2^64 bytes, as in C19 (negation proved for every element size); true up to that, with element sizes for which 64 elements are less than 2^64 bytes (otherwise init fails).")
claim("C23", "partial", "C23_arrayblk_partial C23_arrayblk_false", "Missing: for arrayblk and arrayblkof the grow calls with count above 2^64 - 4096, where count + 4095 overflows.")
claim("C24", "partial", "C24_arrayblkof_partial C24_arrayblkof_false", "Missing: for arrayblk and arrayblkof the grow calls with count above 2^64 - 4096, where count + 4095 overflows. Also the element sizes for which 4096 elements are 2^64 bytes or more.")
claim("C25", "proved", "C25_array C25_arrayof C25_arrayblk C25_arrayblkof", "In every state reachable with any arguments and any element size in a memory of 2^64 bytes, also after a grow that overflows. A free of something not live is an error in the model.")
claim("C26", "proved", "C26_array C26_arrayof C26_arrayblk C26_arrayblkof C26_array_partial C26_arrayof_partial C26_arrayblk_partial C26_arrayblkof_partial", "In every state reachable with any arguments and any element size in a memory of 2^64 bytes, also after a grow that overflows. (The `_partial` theorems: without the limit of the memory, modulo 2^64.)")
claim("C27", "partial", "C27_partial C27_false", "Proved only for a malloc that gives 8 usable bytes more than requested, see C52; without them alloc can write out of the segment (C28_false).")
claim("C28", "partial", "C28_false C28_outside C28_first C28_partial C28_slack C28_room C28_trie_partial", "false of the code: the last block of a segment may exceed it by up to a pointer (the header is not subtracted from the size); the first alloc is inside if and only if the division in blocks leaves room for a pointer, and in this case, that includes the use of tommytrie.c, all the blocks are inside")
claim("C29", "partial", "C29_usage C29_usage_partial C29_reuse_partial C29_reuse_false", "The memory usage is right on every heap (C29_usage, modulo 2^64; exact in C29_usage_partial). The reuse is false of the code when only the requested bytes are usable (C29_reuse_false: the block that exceeds the segment lies in a region of the program, that cuts the list of the free blocks); it is proved under RoomFor (a pointer of slack, or sizes as in C28_partial).")
claim("C30", "partial", "C30_partial C30_live_partial C30_false", "False of the code when only the requested bytes are usable (C30_false: the block that exceeds the segment lies on the header of the next segment, and done() follows a pointer overwritten by the user); proved under RoomFor, as C29. A free of something not live is an error in the model.")
claim("C31", "proved", "C31_tree_set C31_tree_history C31_no_equal C31_tree_frame", "any number of trees with different orders in one memory, with foreign writes between the calls; includes the termination of the mutual recursion of the balance, for any imbalance, without overflow of the signed difference")
claim("C32", "proved", "C32_tree_foreach C32_tree_foreach_arg", "for any callback that leaves alone the elements not yet visited; it may free the visited ones")
claim("C33", "partial", "C33_false C33_tree_balanced_partial", "false of the code: a new leaf has the same index 0 of a null child, and three inserts in order give a chain (negation proved); true with difference at most two")
claim("C34", "proved", "C34_tree_fib C34_tree_height C34_tree_search_cost", "height at most 2 log2(n+1) + 1, and the Fibonacci bound")
claim("C35", "proved", "C35_tree_search_compare", "")

claim("C36","proved","C36_trie_multimap C36_trie_default C36_trie_history C36_trie_frame C36_trie_key_limit",
 "every configuration with TREE_MAX a power of two up to 256 and keys up to the bits of a size, any number of tries sharing memory and allocator, any addresses from the allocator; the last theorem shows that the bound on the keys is needed")
claim("C37","proved","C37_trie_bucket C37_trieinp_bucket","walking the list of the bucket as in the documentation")
claim("C38","proved","C38_trie_blocks C38_trie_no_block C38_trie_empty C38_trie_memory_usage",
 "the number of blocks is an explicit function of the set of the keys")
claim("C39","proved","C39_trieinp_multimap C39_trieinp_default C39_trieinp_history C39_trieinp_frame C39_trieinp_removed_free C39_trieinp_key_limit C39_trieinp_memory_usage",
 "every configuration with TREE_MAX a power of two up to 128 and keys up to the bits of a size (at least three levels), any number of tries, any foreign write to free nodes")
claim("C50","proved","C08_hashtable","")
claim("C51","proved","C14_hashlin_load C14_hashlin_load_tight","")
claim("C52","proved","C27 C27_disjoint C27_bytes C27_sizes","any number of allocators in the same heap, mixed with malloc, free and writes of the program")
claim("C53","proved","C53_sort_cost","on a copy of the model of the sort with a counter of the comparisons, proved to give the same results as the one without")
claim("C54","proved","C54_sort_ordered C54_sort_decreasing","as C53")
claim("C55","proved","C55_tree_insert_cost","on a copy of the model of the insert with a counter of the calls, proved to give the same results as the one without")
claim("C56","proved","C56_tree_remove_cost C56_tree_remove_lower","as C55; the upper and the lower bound are of the same order")
claim("C57","proved","C57_hashdyn_amortized C57_hashdyn_call C57_hashdyn_call_linear","counted by a ghost field of the model, that nothing reads")
claim("C58","proved","C58_hashlin_moved C58_hashlin_call_linear","counted by a ghost field of the model, that nothing reads; one insert moves all the nodes for each number of nodes 2^k + 1, with k from 6 to 57 (to 25 with 32 bit)")
claim("C59","proved","C59_trie_alloc C59_history C59_general C59_slack C59_frame C59_blocks C59_empty C59_live C59_done",
 "a second model of the trie on the bytes, with the code of the allocator; the theorems on the default configuration, and also on every configuration and every use where the blocks are inside the segments. count, node_count and alloc of the struct, and the struct of the allocator, are not in the bytes")
claim("C60","proved","C60_trie_cost C60_trieinp_cost C60_trie_default_bounds C60_trie_default_bounds32 C60_trie_search_exact C60_trie_two",
 "copies of the functions with a counter, proved to give the same results; the list functions, which have no loops, count the accesses of their longest path. The fields count and node_count of the struct and the loop of the client on a bucket are not counted; the search is exact when the configuration has at least two levels")
claim("C61","proved","C61_together C61_history C61_each C61_disjoint C61_frame C61_start",
 "the node memory is one; the vectors of the hashtables and the structs and blocks of the tries are private of each container. tommy_trie_inplace, whose nodes are of another type, and the arrays, which have no nodes, are not between the containers")
claim("C62","proved","C62_collide_hashtable C62_collide_hashdyn C62_collide_hashlin C62_spread_hashtable C62_spread_hashdyn C62_spread_hashlin C62_spread_dense",
 "the number of nodes visited is given by copies of search and remove that fail after n nodes, proved to have the same results; that a search reads no other node is on the model itself")
claim("C63","proved","C63_index C63_state C63_done C63_no_leak",
 "the two tables and the list are in one memory, with the vectors of the buckets; the two int of the objects are kept apart from the nodes, and can be read only if the object is allocated. At each turn of the iterator the client does one of the two moves of the example")
claim("C64","proved","C64_hashtable C64_hashdyn C64_hashlin C64_list C64_tree",
 "free() is a function of the model that is undefined on an object not allocated, removes its nodes, and leaves any content in them")
claim("C65","proved","C65_trie_order C65_order_unique C65_trieinp_order",
 "the reading of the memory is a function of the specification; the library has none")
claim("C66","proved","C66_tables C66_foreach C66_frame C66_frame_init C66_frame_destroy C66_usage C66_release",
 "the memory is one for the nodes and the vectors of all the tables. A vector is identified by a number never used again, so an address given back and obtained again by another table is not represented")
claim("C67","proved","C67_hashdyn_start C67_hashdyn_size C67_hashlin_start C67_hashlin_size C67_memory",
 "the laws are functions of the specification (dynSize, LinSize.next), on the buckets and the elements before and after the call")
claim("C68","partial","C68_doubles_at_half_false C68_halves_at_eighth_false C68_hashlin_start_false C68_hashdyn_partial C68_hashlin_partial",
 "false: tommy_hashdyn is doubled also with a load factor of exactly 0.5 and halved also with exactly 0.125, and tommy_hashlin starts with 64 buckets, that is also its minimal size. Proved of tommy_hashdyn for the other load factors, and of the thresholds of a stable tommy_hashlin")
claim("C69","proved","C69_values C69_inverse_u32 C69_inverse_u64",
 "the published functions and their inverses are functions of the specification on the natural numbers (jenkins, wang, unjenkins, unwang); the published texts are not in the repository and are written from their definition")
claim("C70","proved","C70_concat C70_splice C70_merge C70_merge_degenerated C70_unordered C70_mergesort",
 "tommychain.h:117 says functionally equivalent without conditions: it is proved for ordered chains, the only ones it is called with, and C70_unordered shows two chains, not ordered, where the results differ")
claim("C71","proved","C71_trie C71_trieinp",
 "the accesses are those of the counted functions of C60 (the calls of the functions and the fields count and node_count are not counted; the removal of a node from its list is counted as its longest path, in both the ways)")
claim("C72","proved","C72_ilog2 C72_ctz C72_read",
 "the compiler builtins and the load of the x86 have the meaning that their documentation gives (builtinClz, builtinCtz, bitScanReverse, bitScanForward, leReadX86); ISO C gives none to the load not aligned. Without a bit set the result is undefined, as documented")
claim("C73","partial","C73_false C73_partial C73_distance C73_bucket C73_collision",
 "false: the sum can have a carry out of the four lowest bits. Proved exactly when it has, that the distance of the hashes is always that of the keys, and so that of the buckets, which is what the documentation wants to get")
claim("C74","proved","C74_miss_hashtable C74_miss_hashdyn C74_miss_hashlin C74_hit_hashtable C74_hit_hashdyn C74_hit_hashlin",
 "the nodes are counted with the search limited to a number of nodes of C62 (searchIn): it gives the result with that number and is not defined with less. Only the nodes are counted, not the reads of the bucket vector")
claim("C75","proved","C75_flat C75_history C75_regions C75_own C75_apart C75_disjoint C75_release C75_frame C75_other C75_frame_init",
 "a second model of the three hashtables, all in bytes. malloc() never fails; the comparison functions are pure; foreach is only the documented destroy. The alignment of structs and nodes is not required, and neither of what malloc() returns")
claim("C76","proved","C76_source C76_history C76_reach C76_same C76_frame C76_release C76_foreach C76_foreach_arg",
 "the functions are translated from the text by tools/c2lean.py, without simplifications; the meaning is Verif/C/Sem.lean: evaluation from left to right, out of bounds pointers may be computed, no alignment and no type of the objects required, the local variables are not in memory. malloc() never fails; the comparison functions are pure; foreach with other functions than free() only does what the model does (C76_foreach)")
claim("C77","proved","C77_hash_u32 C77_hash_u64 C77_strhash C77_inthash C77_ilog2 C77_ctz C77_roundup C77_haszero",
 "the same translation and semantics as C76. The x86 text reads 4 bytes at an address not aligned, to which ISO C gives no meaning: here it has that of the processor. In the x86 text only the functions of tommyhash.c are executed (runX86); the others are the same text")
claim("C78","proved","C78_source C78_history C78_apart C78_unique C78_foreach C78_free",
 "the same translation and semantics as C76. The only local variable whose address is taken (let) is an object of the memory, at any free place and with any content at the entry of the function; the calls never fail for lack of stack. The comparison functions are pure and total preorders; foreach is with any function that leaves alone the elements not yet visited (C78_foreach)")
claim("C79","proved","C79_source C79_history C79_apart C79_elements C79_set_get",
 "the same translation and semantics as C76; the pointers of the segments, out of bounds, may be computed. malloc() and calloc() never fail. A set, or a done, must not destroy the struct of another array that the program has put in the elements; the size of the elements is not 0")
claim("C80","proved","C80_source C80_history C80_apart C80_blocks C80_out",
 "the same translation and semantics as C76. malloc() never fails and gives exactly the bytes requested; the sizes and the addresses are those for which the blocks fit in the segment (Room, in the statement of the property: for the other ones C28 is false; C80_out is the undefined behaviour of the text for blocks of the size of a pointer). A free, or a done, must not destroy the struct of another allocator that the program has put in the blocks")
claim("C81","proved","C81_source C81_history C81_walk C81_apart C81_foreach C81_free",
 "the same translation and semantics as C76. tommy_list_sort() is not in the property (it is on the model in C03, C04 and C05). A node inserted must not be in a list; after a concat the second list is not used any more, as documented. The payload of a node is the field data, which the program can write")
json.dump({"claims": C}, open("/verif/MANIFEST.json", "w"), indent=1)
