{
 "claims": [
  {
   "property": "C01",
   "status": "proved",
   "theorems": [
    "Tommy.C01_list_sequence",
    "Tommy.C01_list_history"
   ],
   "note": "Refinement for all histories on any number of lists; includes sort with arbitrary comparators and foreign writes."
  },
  {
   "property": "C02",
   "status": "proved",
   "theorems": [
    "Tommy.C02_list_links"
   ],
   "note": "In every reachable state."
  },
  {
   "property": "C03",
   "status": "proved",
   "theorems": [
    "Tommy.C03_list_sort_sorted"
   ],
   "note": "Any length, any memory layout, any total preorder."
  },
  {
   "property": "C04",
   "status": "proved",
   "theorems": [
    "Tommy.C04_list_sort_stable"
   ],
   "note": ""
  },
  {
   "property": "C05",
   "status": "proved",
   "theorems": [
    "Tommy.C05_list_sort_any_cmp"
   ],
   "note": ""
  },
  {
   "property": "C06",
   "status": "proved",
   "theorems": [
    "Tommy.C06_list_foreach",
    "Tommy.C06_list_foreach_arg"
   ],
   "note": "Callback is an arbitrary memory transformer leaving unvisited nodes alone."
  },
  {
   "property": "C07",
   "status": "proved",
   "theorems": [
    "Tommy.C07_list_frame"
   ],
   "note": ""
  },
  {
   "property": "C08",
   "status": "partial",
   "theorems": [
    "Tommy.C08_hashtable_partial",
    "Tommy.C08_hashtable_false"
   ],
   "note": "Missing: initial sizes over 2^60, for which it fails (C18_init_buckets_false). Proved up to 2^60, see C50."
  },
  {
   "property": "C09",
   "status": "proved",
   "theorems": [
    "Tommy.C09_hashdyn"
   ],
   "note": ""
  },
  {
   "property": "C10",
   "status": "proved",
   "theorems": [
    "Tommy.C10_hashlin"
   ],
   "note": ""
  },
  {
   "property": "C11",
   "status": "partial",
   "theorems": [
    "Tommy.C11_bucket_hashtable_partial",
    "Tommy.C11_bucket_hashdyn",
    "Tommy.C11_bucket_hashlin",
    "Tommy.C11_bucket_hashtable_false"
   ],
   "note": "False for a tommy_hashtable initialised with more than 2^60 buckets (negation proved). Proved for hashdyn, hashlin and for hashtable up to that size."
  },
  {
   "property": "C12",
   "status": "partial",
   "theorems": [
    "Tommy.C12_foreach_hashtable_partial",
    "Tommy.C12_foreach_hashdyn",
    "Tommy.C12_foreach_hashlin",
    "Tommy.C12_foreach_arg_hashtable_partial",
    "Tommy.C12_foreach_arg_hashdyn",
    "Tommy.C12_foreach_arg_hashlin",
    "Tommy.C12_foreach_hashtable_false"
   ],
   "note": "False for a tommy_hashtable initialised with more than 2^60 and up to 2^63 buckets (negation proved). Proved for hashdyn, hashlin and for hashtable up to 2^60. The callback is an arbitrary memory transformer."
  },
  {
   "property": "C13",
   "status": "proved",
   "theorems": [
    "Tommy.C13_hashdyn_load"
   ],
   "note": ""
  },
  {
   "property": "C14",
   "status": "partial",
   "theorems": [
    "Tommy.C14_hashlin_load_partial",
    "Tommy.C14_hashlin_load_false"
   ],
   "note": "The first bound is false by one element (C14_hashlin_load_tight reaches 2n = bucket_max + 2). The exact bounds are C51."
  },
  {
   "property": "C15",
   "status": "partial",
   "theorems": [
    "Tommy.C15_hashlin_constant_work_false",
    "Tommy.C15_hashlin_no_constant",
    "Tommy.C15_hashlin_work_partial"
   ],
   "note": "False: an insert can split 2^k - 8 buckets for each k from 6 to 57, so no constant below 2^56 is a bound. True part: at most 8 except for an insert in the shrinking state."
  },
  {
   "property": "C16",
   "status": "proved",
   "theorems": [
    "Tommy.C16_hashlin_amortized"
   ],
   "note": "4 for each insert and 8 for each remove."
  },
  {
   "property": "C17",
   "status": "proved",
   "theorems": [
    "Tommy.C17_done_hashtable",
    "Tommy.C17_done_hashdyn",
    "Tommy.C17_done_hashlin"
   ],
   "note": ""
  },
  {
   "property": "C18",
   "status": "partial",
   "theorems": [
    "Tommy.C18_init_buckets_partial",
    "Tommy.C18_init_buckets_false"
   ],
   "note": "The property is false for every n > 2^60 (negation proved); proved for n <= 2^60."
  },
  {
   "property": "C45",
   "status": "proved",
   "theorems": [
    "Tommy.C45_ilog2_u32",
    "Tommy.C45_ilog2_u64",
    "Tommy.C45_ctz_u32",
    "Tommy.C45_ctz_u64",
    "Tommy.C45_gcc_u32",
    "Tommy.C45_gcc_u64"
   ],
   "note": ""
  },
  {
   "property": "C46",
   "status": "proved",
   "theorems": [
    "Tommy.C46_roundup_u32",
    "Tommy.C46_roundup_u64",
    "Tommy.C46_roundup",
    "Tommy.C46_roundup_wraps",
    "Tommy.C46_roundup_wraps_u32"
   ],
   "note": ""
  },
  {
   "property": "C47",
   "status": "proved",
   "theorems": [
    "Tommy.C47_haszero"
   ],
   "note": ""
  },
  {
   "property": "C48",
   "status": "proved",
   "theorems": [
    "Tommy.C48_frame_hashtable",
    "Tommy.C48_frame_hashdyn",
    "Tommy.C48_frame_hashlin"
   ],
   "note": ""
  },
  {
   "property": "C49",
   "status": "proved",
   "theorems": [
    "Tommy.C49_usage_hashtable",
    "Tommy.C49_usage_hashdyn",
    "Tommy.C49_usage_hashlin",
    "Tommy.C49_usage_hashtable_all_partial",
    "Tommy.C49_usage_hashdyn_partial",
    "Tommy.C49_usage_hashlin_partial"
   ],
   "note": "Exact in a memory of 2^sizeBit bytes (2^32 or 2^64), where the vectors and the nodes together cannot exceed that (the `_partial` theorems: modulo 2^64 in any memory of the model)."
  },
  {
   "property": "C40",
   "status": "proved",
   "theorems": [
    "Tommy.C40_inthash_u32",
    "Tommy.C40_inthash_u64"
   ],
   "note": "xorshift steps are injective by induction on bits; the arithmetic steps are multiplications by odd constants with explicit inverses"
  },
  {
   "property": "C41",
   "status": "proved",
   "theorems": [
    "Tommy.C41_hash_u32",
    "Tommy.C41_hash_u64",
    "Tommy.C41_only_key"
   ],
   "note": "against an independent definition of lookup3 on byte lists (checked on its published test vectors); memory out of the key may be unreadable"
  },
  {
   "property": "C42",
   "status": "proved",
   "theorems": [
    "Tommy.C42_low_bits"
   ],
   "note": ""
  },
  {
   "property": "C43",
   "status": "proved",
   "theorems": [
    "Tommy.C43_strhash",
    "Tommy.C43_only_string"
   ],
   "note": ""
  },
  {
   "property": "C44",
   "status": "partial",
   "theorems": [
    "Tommy.C44_overread",
    "Tommy.C44_false",
    "Tommy.C44_partial"
   ],
   "note": "false of the code: up to 3 bytes after the terminator are read unless the length is 3 modulo 4; proved the negation and the exact bound"
  },
  {
   "property": "C19",
   "status": "partial",
   "theorems": [
    "Tommy.C19_array_partial",
    "Tommy.C19_array_false"
   ],
   "note": "False for sizes over 2^60: no memory of 2^64 bytes has room for the segments, calloc fails and the library does not check (negation proved in every state). True for all the sizes with segments up to 2^64 bytes: init succeeds and every history is correct, with foreign writes between the calls."
  },
  {
   "property": "C20",
   "status": "partial",
   "theorems": [
    "Tommy.C20_array_all_partial",
    "Tommy.C20_arrayof_all_partial",
    "Tommy.C20_array_partial",
    "Tommy.C20_arrayof_partial",
    "Tommy.C20_arrayblk_partial",
    "Tommy.C20_arrayblkof_partial",
    "Tommy.C20_C21_arrayblk_false",
    "Tommy.C20_C21_arrayblkof_false"
   ],
   "note": "For any two states, the second one later. For array and arrayof with any argument and any element size, in a memory of 2^64 bytes. False for arrayblk and arrayblkof after a grow with count above 2^64 - 4096, where count + 4095 overflows (negation proved); true up to that."
  },
  {
   "property": "C21",
   "status": "partial",
   "theorems": [
    "Tommy.C21_array_all_partial",
    "Tommy.C21_arrayof_all_partial",
    "Tommy.C21_array_partial",
    "Tommy.C21_arrayof_partial",
    "Tommy.C21_arrayblk_partial",
    "Tommy.C21_arrayblkof_partial",
    "Tommy.C20_C21_arrayblk_false",
    "Tommy.C20_C21_arrayblkof_false"
   ],
   "note": "Also that no call touches the memory of the rest of the program. For array and arrayof with any argument and any element size, in a memory of 2^64 bytes. False for arrayblk and arrayblkof after a grow with count above 2^64 - 4096, where count + 4095 overflows (negation proved); true up to that."
  },
  {
   "property": "C22",
   "status": "partial",
   "theorems": [
    "Tommy.C22_arrayof_partial",
    "Tommy.C22_arrayof_false"
   ],
   "note": "False when the elements exceed 2^64 bytes, as in C19 (negation proved for every element size); true up to that, with element sizes for which 64 elements are less than 2^64 bytes (otherwise init fails)."
  },
  {
   "property": "C23",
   "status": "partial",
   "theorems": [
    "Tommy.C23_arrayblk_partial",
    "Tommy.C23_arrayblk_false"
   ],
   "note": "Missing: for arrayblk and arrayblkof the grow calls with count above 2^64 - 4096, where count + 4095 overflows."
  },
  {
   "property": "C24",
   "status": "partial",
   "theorems": [
    "Tommy.C24_arrayblkof_partial",
    "Tommy.C24_arrayblkof_false"
   ],
   "note": "Missing: for arrayblk and arrayblkof the grow calls with count above 2^64 - 4096, where count + 4095 overflows. Also the element sizes for which 4096 elements are 2^64 bytes or more."
  },
  {
   "property": "C25",
   "status": "proved",
   "theorems": [
    "Tommy.C25_array",
    "Tommy.C25_arrayof",
    "Tommy.C25_arrayblk",
    "Tommy.C25_arrayblkof"
   ],
   "note": "In every state reachable with any arguments and any element size in a memory of 2^64 bytes, also after a grow that overflows. A free of something not live is an error in the model."
  },
  {
   "property": "C26",
   "status": "proved",
   "theorems": [
    "Tommy.C26_array",
    "Tommy.C26_arrayof",
    "Tommy.C26_arrayblk",
    "Tommy.C26_arrayblkof",
    "Tommy.C26_array_partial",
    "Tommy.C26_arrayof_partial",
    "Tommy.C26_arrayblk_partial",
    "Tommy.C26_arrayblkof_partial"
   ],
   "note": "In every state reachable with any arguments and any element size in a memory of 2^64 bytes, also after a grow that overflows. (The `_partial` theorems: without the limit of the memory, modulo 2^64.)"
  },
  {
   "property": "C27",
   "status": "partial",
   "theorems": [
    "Tommy.C27_partial",
    "Tommy.C27_false"
   ],
   "note": "Proved only for a malloc that gives 8 usable bytes more than requested, see C52; without them alloc can write out of the segment (C28_false)."
  },
  {
   "property": "C28",
   "status": "partial",
   "theorems": [
    "Tommy.C28_false",
    "Tommy.C28_outside",
    "Tommy.C28_first",
    "Tommy.C28_partial",
    "Tommy.C28_slack",
    "Tommy.C28_room",
    "Tommy.C28_trie_partial"
   ],
   "note": "false of the code: the last block of a segment may exceed it by up to a pointer (the header is not subtracted from the size); the first alloc is inside if and only if the division in blocks leaves room for a pointer, and in this case, that includes the use of tommytrie.c, all the blocks are inside"
  },
  {
   "property": "C29",
   "status": "partial",
   "theorems": [
    "Tommy.C29_usage",
    "Tommy.C29_usage_partial",
    "Tommy.C29_reuse_partial",
    "Tommy.C29_reuse_false"
   ],
   "note": "The memory usage is right on every heap (C29_usage, modulo 2^64; exact in C29_usage_partial). The reuse is false of the code when only the requested bytes are usable (C29_reuse_false: the block that exceeds the segment lies in a region of the program, that cuts the list of the free blocks); it is proved under RoomFor (a pointer of slack, or sizes as in C28_partial)."
  },
  {
   "property": "C30",
   "status": "partial",
   "theorems": [
    "Tommy.C30_partial",
    "Tommy.C30_live_partial",
    "Tommy.C30_false"
   ],
   "note": "False of the code when only the requested bytes are usable (C30_false: the block that exceeds the segment lies on the header of the next segment, and done() follows a pointer overwritten by the user); proved under RoomFor, as C29. A free of something not live is an error in the model."
  },
  {
   "property": "C31",
   "status": "proved",
   "theorems": [
    "Tommy.C31_tree_set",
    "Tommy.C31_tree_history",
    "Tommy.C31_no_equal",
    "Tommy.C31_tree_frame"
   ],
   "note": "any number of trees with different orders in one memory, with foreign writes between the calls; includes the termination of the mutual recursion of the balance, for any imbalance, without overflow of the signed difference"
  },
  {
   "property": "C32",
   "status": "proved",
   "theorems": [
    "Tommy.C32_tree_foreach",
    "Tommy.C32_tree_foreach_arg"
   ],
   "note": "for any callback that leaves alone the elements not yet visited; it may free the visited ones"
  },
  {
   "property": "C33",
   "status": "partial",
   "theorems": [
    "Tommy.C33_false",
    "Tommy.C33_tree_balanced_partial"
   ],
   "note": "false of the code: a new leaf has the same index 0 of a null child, and three inserts in order give a chain (negation proved); true with difference at most two"
  },
  {
   "property": "C34",
   "status": "proved",
   "theorems": [
    "Tommy.C34_tree_fib",
    "Tommy.C34_tree_height",
    "Tommy.C34_tree_search_cost"
   ],
   "note": "height at most 2 log2(n+1) + 1, and the Fibonacci bound"
  },
  {
   "property": "C35",
   "status": "proved",
   "theorems": [
    "Tommy.C35_tree_search_compare"
   ],
   "note": ""
  },
  {
   "property": "C36",
   "status": "proved",
   "theorems": [
    "Tommy.C36_trie_multimap",
    "Tommy.C36_trie_default",
    "Tommy.C36_trie_history",
    "Tommy.C36_trie_frame",
    "Tommy.C36_trie_key_limit"
   ],
   "note": "every configuration with TREE_MAX a power of two up to 256 and keys up to the bits of a size, any number of tries sharing memory and allocator, any addresses from the allocator; the last theorem shows that the bound on the keys is needed"
  },
  {
   "property": "C37",
   "status": "proved",
   "theorems": [
    "Tommy.C37_trie_bucket",
    "Tommy.C37_trieinp_bucket"
   ],
   "note": "walking the list of the bucket as in the documentation"
  },
  {
   "property": "C38",
   "status": "proved",
   "theorems": [
    "Tommy.C38_trie_blocks",
    "Tommy.C38_trie_no_block",
    "Tommy.C38_trie_empty",
    "Tommy.C38_trie_memory_usage"
   ],
   "note": "the number of blocks is an explicit function of the set of the keys"
  },
  {
   "property": "C39",
   "status": "proved",
   "theorems": [
    "Tommy.C39_trieinp_multimap",
    "Tommy.C39_trieinp_default",
    "Tommy.C39_trieinp_history",
    "Tommy.C39_trieinp_frame",
    "Tommy.C39_trieinp_removed_free",
    "Tommy.C39_trieinp_key_limit",
    "Tommy.C39_trieinp_memory_usage"
   ],
   "note": "every configuration with TREE_MAX a power of two up to 128 and keys up to the bits of a size (at least three levels), any number of tries, any foreign write to free nodes"
  },
  {
   "property": "C50",
   "status": "proved",
   "theorems": [
    "Tommy.C08_hashtable"
   ],
   "note": ""
  },
  {
   "property": "C51",
   "status": "proved",
   "theorems": [
    "Tommy.C14_hashlin_load",
    "Tommy.C14_hashlin_load_tight"
   ],
   "note": ""
  },
  {
   "property": "C52",
   "status": "proved",
   "theorems": [
    "Tommy.C27",
    "Tommy.C27_disjoint",
    "Tommy.C27_bytes",
    "Tommy.C27_sizes"
   ],
   "note": "any number of allocators in the same heap, mixed with malloc, free and writes of the program"
  },
  {
   "property": "C53",
   "status": "proved",
   "theorems": [
    "Tommy.C53_sort_cost"
   ],
   "note": "on a copy of the model of the sort with a counter of the comparisons, proved to give the same results as the one without"
  },
  {
   "property": "C54",
   "status": "proved",
   "theorems": [
    "Tommy.C54_sort_ordered",
    "Tommy.C54_sort_decreasing"
   ],
   "note": "as C53"
  },
  {
   "property": "C55",
   "status": "proved",
   "theorems": [
    "Tommy.C55_tree_insert_cost"
   ],
   "note": "on a copy of the model of the insert with a counter of the calls, proved to give the same results as the one without"
  },
  {
   "property": "C56",
   "status": "proved",
   "theorems": [
    "Tommy.C56_tree_remove_cost",
    "Tommy.C56_tree_remove_lower"
   ],
   "note": "as C55; the upper and the lower bound are of the same order"
  },
  {
   "property": "C57",
   "status": "proved",
   "theorems": [
    "Tommy.C57_hashdyn_amortized",
    "Tommy.C57_hashdyn_call",
    "Tommy.C57_hashdyn_call_linear"
   ],
   "note": "counted by a ghost field of the model, that nothing reads"
  },
  {
   "property": "C58",
   "status": "proved",
   "theorems": [
    "Tommy.C58_hashlin_moved",
    "Tommy.C58_hashlin_call_linear"
   ],
   "note": "counted by a ghost field of the model, that nothing reads; one insert moves all the nodes for each number of nodes 2^k + 1, with k from 6 to 57 (to 25 with 32 bit)"
  },
  {
   "property": "C59",
   "status": "proved",
   "theorems": [
    "Tommy.C59_trie_alloc",
    "Tommy.C59_history",
    "Tommy.C59_general",
    "Tommy.C59_slack",
    "Tommy.C59_frame",
    "Tommy.C59_blocks",
    "Tommy.C59_empty",
    "Tommy.C59_live",
    "Tommy.C59_done"
   ],
   "note": "a second model of the trie on the bytes, with the code of the allocator; the theorems on the default configuration, and also on every configuration and every use where the blocks are inside the segments. count, node_count and alloc of the struct, and the struct of the allocator, are not in the bytes"
  },
  {
   "property": "C60",
   "status": "proved",
   "theorems": [
    "Tommy.C60_trie_cost",
    "Tommy.C60_trieinp_cost",
    "Tommy.C60_trie_default_bounds",
    "Tommy.C60_trie_default_bounds32",
    "Tommy.C60_trie_search_exact",
    "Tommy.C60_trie_two"
   ],
   "note": "copies of the functions with a counter, proved to give the same results; the list functions, which have no loops, count the accesses of their longest path. The fields count and node_count of the struct and the loop of the client on a bucket are not counted; the search is exact when the configuration has at least two levels"
  },
  {
   "property": "C61",
   "status": "proved",
   "theorems": [
    "Tommy.C61_together",
    "Tommy.C61_history",
    "Tommy.C61_each",
    "Tommy.C61_disjoint",
    "Tommy.C61_frame",
    "Tommy.C61_start"
   ],
   "note": "the node memory is one; the vectors of the hashtables and the structs and blocks of the tries are private of each container. tommy_trie_inplace, whose nodes are of another type, and the arrays, which have no nodes, are not between the containers"
  },
  {
   "property": "C62",
   "status": "proved",
   "theorems": [
    "Tommy.C62_collide_hashtable",
    "Tommy.C62_collide_hashdyn",
    "Tommy.C62_collide_hashlin",
    "Tommy.C62_spread_hashtable",
    "Tommy.C62_spread_hashdyn",
    "Tommy.C62_spread_hashlin",
    "Tommy.C62_spread_dense"
   ],
   "note": "the number of nodes visited is given by copies of search and remove that fail after n nodes, proved to have the same results; that a search reads no other node is on the model itself"
  },
  {
   "property": "C63",
   "status": "proved",
   "theorems": [
    "Tommy.C63_index",
    "Tommy.C63_state",
    "Tommy.C63_done",
    "Tommy.C63_no_leak"
   ],
   "note": "the two tables and the list are in one memory, with the vectors of the buckets; the two int of the objects are kept apart from the nodes, and can be read only if the object is allocated. At each turn of the iterator the client does one of the two moves of the example"
  },
  {
   "property": "C64",
   "status": "proved",
   "theorems": [
    "Tommy.C64_hashtable",
    "Tommy.C64_hashdyn",
    "Tommy.C64_hashlin",
    "Tommy.C64_list",
    "Tommy.C64_tree"
   ],
   "note": "free() is a function of the model that is undefined on an object not allocated, removes its nodes, and leaves any content in them"
  },
  {
   "property": "C65",
   "status": "proved",
   "theorems": [
    "Tommy.C65_trie_order",
    "Tommy.C65_order_unique",
    "Tommy.C65_trieinp_order"
   ],
   "note": "the reading of the memory is a function of the specification; the library has none"
  },
  {
   "property": "C66",
   "status": "proved",
   "theorems": [
    "Tommy.C66_tables",
    "Tommy.C66_foreach",
    "Tommy.C66_frame",
    "Tommy.C66_frame_init",
    "Tommy.C66_frame_destroy",
    "Tommy.C66_usage",
    "Tommy.C66_release"
   ],
   "note": "the memory is one for the nodes and the vectors of all the tables. A vector is identified by a number never used again, so an address given back and obtained again by another table is not represented"
  },
  {
   "property": "C67",
   "status": "proved",
   "theorems": [
    "Tommy.C67_hashdyn_start",
    "Tommy.C67_hashdyn_size",
    "Tommy.C67_hashlin_start",
    "Tommy.C67_hashlin_size",
    "Tommy.C67_memory"
   ],
   "note": "the laws are functions of the specification (dynSize, LinSize.next), on the buckets and the elements before and after the call"
  },
  {
   "property": "C68",
   "status": "partial",
   "theorems": [
    "Tommy.C68_doubles_at_half_false",
    "Tommy.C68_halves_at_eighth_false",
    "Tommy.C68_hashlin_start_false",
    "Tommy.C68_hashdyn_partial",
    "Tommy.C68_hashlin_partial"
   ],
   "note": "false: tommy_hashdyn is doubled also with a load factor of exactly 0.5 and halved also with exactly 0.125, and tommy_hashlin starts with 64 buckets, that is also its minimal size. Proved of tommy_hashdyn for the other load factors, and of the thresholds of a stable tommy_hashlin"
  },
  {
   "property": "C69",
   "status": "proved",
   "theorems": [
    "Tommy.C69_values",
    "Tommy.C69_inverse_u32",
    "Tommy.C69_inverse_u64"
   ],
   "note": "the published functions and their inverses are functions of the specification on the natural numbers (jenkins, wang, unjenkins, unwang); the published texts are not in the repository and are written from their definition"
  },
  {
   "property": "C70",
   "status": "proved",
   "theorems": [
    "Tommy.C70_concat",
    "Tommy.C70_splice",
    "Tommy.C70_merge",
    "Tommy.C70_merge_degenerated",
    "Tommy.C70_unordered",
    "Tommy.C70_mergesort"
   ],
   "note": "tommychain.h:117 says functionally equivalent without conditions: it is proved for ordered chains, the only ones it is called with, and C70_unordered shows two chains, not ordered, where the results differ"
  },
  {
   "property": "C71",
   "status": "proved",
   "theorems": [
    "Tommy.C71_trie",
    "Tommy.C71_trieinp"
   ],
   "note": "the accesses are those of the counted functions of C60 (the calls of the functions and the fields count and node_count are not counted; the removal of a node from its list is counted as its longest path, in both the ways)"
  },
  {
   "property": "C72",
   "status": "proved",
   "theorems": [
    "Tommy.C72_ilog2",
    "Tommy.C72_ctz",
    "Tommy.C72_read"
   ],
   "note": "the compiler builtins and the load of the x86 have the meaning that their documentation gives (builtinClz, builtinCtz, bitScanReverse, bitScanForward, leReadX86); ISO C gives none to the load not aligned. Without a bit set the result is undefined, as documented"
  },
  {
   "property": "C73",
   "status": "partial",
   "theorems": [
    "Tommy.C73_false",
    "Tommy.C73_partial",
    "Tommy.C73_distance",
    "Tommy.C73_bucket",
    "Tommy.C73_collision"
   ],
   "note": "false: the sum can have a carry out of the four lowest bits. Proved exactly when it has, that the distance of the hashes is always that of the keys, and so that of the buckets, which is what the documentation wants to get"
  },
  {
   "property": "C74",
   "status": "proved",
   "theorems": [
    "Tommy.C74_miss_hashtable",
    "Tommy.C74_miss_hashdyn",
    "Tommy.C74_miss_hashlin",
    "Tommy.C74_hit_hashtable",
    "Tommy.C74_hit_hashdyn",
    "Tommy.C74_hit_hashlin"
   ],
   "note": "the nodes are counted with the search limited to a number of nodes of C62 (searchIn): it gives the result with that number and is not defined with less. Only the nodes are counted, not the reads of the bucket vector"
  },
  {
   "property": "C75",
   "status": "proved",
   "theorems": [
    "Tommy.C75_flat",
    "Tommy.C75_history",
    "Tommy.C75_regions",
    "Tommy.C75_own",
    "Tommy.C75_apart",
    "Tommy.C75_disjoint",
    "Tommy.C75_release",
    "Tommy.C75_frame",
    "Tommy.C75_other",
    "Tommy.C75_frame_init"
   ],
   "note": "a second model of the three hashtables, all in bytes. malloc() never fails; the comparison functions are pure; foreach is only the documented destroy. The alignment of structs and nodes is not required, and neither of what malloc() returns"
  },
  {
   "property": "C76",
   "status": "proved",
   "theorems": [
    "Tommy.C76_source",
    "Tommy.C76_history",
    "Tommy.C76_reach",
    "Tommy.C76_same",
    "Tommy.C76_frame",
    "Tommy.C76_release",
    "Tommy.C76_foreach",
    "Tommy.C76_foreach_arg"
   ],
   "note": "the functions are translated from the text by tools/c2lean.py, without simplifications; the meaning is Verif/C/Sem.lean: evaluation from left to right, out of bounds pointers may be computed, no alignment and no type of the objects required, the local variables are not in memory. malloc() never fails; the comparison functions are pure; foreach with other functions than free() only does what the model does (C76_foreach)"
  },
  {
   "property": "C77",
   "status": "proved",
   "theorems": [
    "Tommy.C77_hash_u32",
    "Tommy.C77_hash_u64",
    "Tommy.C77_strhash",
    "Tommy.C77_inthash",
    "Tommy.C77_ilog2",
    "Tommy.C77_ctz",
    "Tommy.C77_roundup",
    "Tommy.C77_haszero"
   ],
   "note": "the same translation and semantics as C76. The x86 text reads 4 bytes at an address not aligned, to which ISO C gives no meaning: here it has that of the processor. In the x86 text only the functions of tommyhash.c are executed (runX86); the others are the same text"
  },
  {
   "property": "C78",
   "status": "proved",
   "theorems": [
    "Tommy.C78_source",
    "Tommy.C78_history",
    "Tommy.C78_apart",
    "Tommy.C78_unique",
    "Tommy.C78_foreach",
    "Tommy.C78_free"
   ],
   "note": "the same translation and semantics as C76. The only local variable whose address is taken (let) is an object of the memory, at any free place and with any content at the entry of the function; the calls never fail for lack of stack. The comparison functions are pure and total preorders; foreach is with any function that leaves alone the elements not yet visited (C78_foreach)"
  },
  {
   "property": "C79",
   "status": "proved",
   "theorems": [
    "Tommy.C79_source",
    "Tommy.C79_history",
    "Tommy.C79_apart",
    "Tommy.C79_elements",
    "Tommy.C79_set_get"
   ],
   "note": "the same translation and semantics as C76; the pointers of the segments, out of bounds, may be computed. malloc() and calloc() never fail. A set, or a done, must not destroy the struct of another array that the program has put in the elements; the size of the elements is not 0"
  },
  {
   "property": "C80",
   "status": "proved",
   "theorems": [
    "Tommy.C80_source",
    "Tommy.C80_history",
    "Tommy.C80_apart",
    "Tommy.C80_blocks",
    "Tommy.C80_out"
   ],
   "note": "the same translation and semantics as C76. malloc() never fails and gives exactly the bytes requested; the sizes and the addresses are those for which the blocks fit in the segment (Room, in the statement of the property: for the other ones C28 is false; C80_out is the undefined behaviour of the text for blocks of the size of a pointer). A free, or a done, must not destroy the struct of another allocator that the program has put in the blocks"
  },
  {
   "property": "C81",
   "status": "proved",
   "theorems": [
    "Tommy.C81_source",
    "Tommy.C81_history",
    "Tommy.C81_walk",
    "Tommy.C81_apart",
    "Tommy.C81_foreach",
    "Tommy.C81_free"
   ],
   "note": "the same translation and semantics as C76. tommy_list_sort() is not in the property (it is on the model in C03, C04 and C05). A node inserted must not be in a list; after a concat the second list is not used any more, as documented. The payload of a node is the field data, which the program can write"
  }
 ]
}