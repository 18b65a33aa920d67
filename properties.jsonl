{"id": "C01", "title": "List operations implement a sequence", "statement": "For every history of list calls (init, insert_head, insert_tail, remove_existing, concat, sort) on any number of lists sharing memory, no call has undefined behaviour, and walking a list from tommy_list_head() through ->next gives exactly the sequence predicted by the obvious sequence model (push front, push back, erase, append, sort); tail/empty/count/remove_existing return the model's values.", "quantifier": "every finite history of calls on any number of lists, every node address and payload, with arbitrary foreign writes to nodes that are in no list between the calls", "why_tests_cant": "the number of histories and of pointer configurations is unbounded; a unit test only samples a few of them", "anchors": ["tommyds/tommylist.h:tommy_list_insert_head", "tommyds/tommylist.h:tommy_list_insert_tail", "tommyds/tommylist.h:tommy_list_remove_existing", "tommyds/tommylist.h:tommy_list_concat", "tommyds/tommylist.h:tommy_list_tail", "tommyds/tommylist.h:tommy_list_count"]}
{"id": "C02", "title": "List is well linked in both directions", "statement": "After any history of list calls, in every list the prev links are the exact reverse of the next links, the head's prev is the tail (circular prev), the tail's next is 0, and no node occurs twice.", "quantifier": "every reachable state of every list", "why_tests_cant": "a broken prev link is only observed by a later removal; tests check only the forward walk of a few lists", "anchors": ["tommyds/tommylist.h", "tommyds/tommytypes.h:tommy_node_struct"]}
{"id": "C03", "title": "List sort returns a sorted permutation", "statement": "tommy_list_sort() with a comparison function that is a total preorder leaves in the list exactly the nodes that were there, each once, arranged so that no element is greater than a later one.", "quantifier": "every list length, every arrangement of nodes in memory, every comparison function that is a total preorder", "why_tests_cant": "all lengths and all orders; the bucket/carry structure depends on the binary expansion of the length", "anchors": ["tommyds/tommylist.c:tommy_list_sort", "tommyds/tommychain.h:tommy_chain_mergesort", "tommyds/tommychain.h:tommy_chain_merge_degenerated"]}
{"id": "C04", "title": "List sort is stable", "statement": "tommy_list_sort() keeps the relative order of the elements that compare equal.", "quantifier": "every list, every total preorder, every equivalence class of equal elements", "why_tests_cant": "stability must hold for every tie pattern and every bucket split", "anchors": ["tommyds/tommychain.h:tommy_chain_merge", "tommyds/tommychain.h:tommy_chain_merge_degenerated"]}
{"id": "C05", "title": "List sort is safe for any comparator", "statement": "tommy_list_sort() terminates without undefined behaviour and keeps every node exactly once, in a well formed list, even when the comparison function is not a consistent order.", "quantifier": "every list and every function from pairs of elements to int", "why_tests_cant": "the space of inconsistent comparators is unbounded", "anchors": ["tommyds/tommychain.h:tommy_chain_merge", "tommyds/tommychain.h:tommy_chain_mergesort"]}
{"id": "C06", "title": "foreach may deallocate", "statement": "tommy_list_foreach() calls the callback once for each element, in list order, and never touches a node after the callback was called on its object, so the callback can free it.", "quantifier": "every list, every callback that only destroys or changes the already visited elements", "why_tests_cant": "use after free is invisible to a functional test", "anchors": ["tommyds/tommylist.h:tommy_list_foreach", "tommyds/tommylist.h:tommy_list_foreach_arg"]}
{"id": "C07", "title": "List calls do not touch foreign memory", "statement": "A list call only changes next/prev/data of nodes that are in the lists passed to it or of the inserted node; in particular the payload (data) of the other nodes and the index field of every node never change.", "quantifier": "every list call in every reachable state, every node address", "why_tests_cant": "a stray write to a foreign node is invisible unless that very node is checked", "anchors": ["tommyds/tommylist.h", "tommyds/tommylist.c", "tommyds/tommychain.h"]}
{"id": "C08", "title": "tommy_hashtable implements a multimap", "statement": "For every history of calls on a tommy_hashtable no call has undefined behaviour and every result is the one of the reference multiset in insertion order: search(cmp, hash) returns the payload of the first inserted present element with that hash for which cmp gives 0, or 0; remove() returns and removes the same element; remove_existing() removes exactly the given node; count() is the number of elements.", "quantifier": "every initial size, every history of insert/remove/remove_existing/search/bucket/count, every hash value and comparison function, with foreign writes between calls", "why_tests_cant": "all histories, all collision patterns, all table sizes", "anchors": ["tommyds/tommyhashtbl.c", "tommyds/tommyhashtbl.h:tommy_hashtable_search"]}
{"id": "C09", "title": "tommy_hashdyn implements a multimap across resizes", "statement": "For every history of calls on a tommy_hashdyn, including all the grow and shrink resizes it triggers, no call has undefined behaviour (in particular no bucket of the new malloc()ed vector is read before being written) and every result is the one of the reference multiset in insertion order: search(cmp, hash) returns the payload of the first inserted present element with that hash for which cmp gives 0, or 0; remove() returns and removes the same element; remove_existing() removes exactly the given node; count() is the number of elements.", "quantifier": "every history of insert/remove/remove_existing/search/bucket/count, every hash value and comparison function", "why_tests_cant": "all histories crossing resize thresholds in any order", "anchors": ["tommyds/tommyhashdyn.c:tommy_hashdyn_resize", "tommyds/tommyhashdyn.c:tommy_hashdyn_insert", "tommyds/tommyhashdyn.c:tommy_hashdyn_remove"]}
{"id": "C10", "title": "tommy_hashlin implements a multimap during progressive resizes", "statement": "For every history of calls on a tommy_hashlin, including every partially done grow or shrink and every change of direction, no call has undefined behaviour (no not initialised bucket is read, no segment is accessed out of bounds, the split counter never underflows) and every result is the one of the reference multiset in insertion order: search(cmp, hash) returns the payload of the first inserted present element with that hash for which cmp gives 0, or 0; remove() returns and removes the same element; remove_existing() removes exactly the given node; count() is the number of elements.", "quantifier": "every history of insert/remove/remove_existing/search/bucket/count, every hash value and comparison function", "why_tests_cant": "the intermediate split positions and direction changes form an unbounded state space", "anchors": ["tommyds/tommyhashlin.c:hashlin_grow_step", "tommyds/tommyhashlin.c:hashlin_shrink_step", "tommyds/tommyhashlin.h:tommy_hashlin_bucket_ref"]}
{"id": "C11", "title": "Hashtable bucket() contains all the elements of the hash", "statement": "In each of the three hashtables the list returned by bucket(hash), walked through ->next, contains every stored element with that hash, in insertion order, and only stored elements, each at most once.", "quantifier": "every reachable state of the three hashtables and every hash value", "why_tests_cant": "must hold for all states, including in the middle of a progressive resize", "anchors": ["tommyds/tommyhashtbl.h:tommy_hashtable_bucket", "tommyds/tommyhashdyn.h:tommy_hashdyn_bucket", "tommyds/tommyhashlin.h:tommy_hashlin_bucket"]}
{"id": "C12", "title": "Hashtable foreach visits each element exactly once", "statement": "In each of the three hashtables foreach() calls the callback exactly once for each stored element, whatever the resize state, and the callback may deallocate the elements.", "quantifier": "every reachable state of the three hashtables", "why_tests_cant": "an element lost in an unmerged/unsplit bucket depends on the exact history", "anchors": ["tommyds/tommyhashtbl.c:tommy_hashtable_foreach", "tommyds/tommyhashdyn.c:tommy_hashdyn_foreach", "tommyds/tommyhashlin.c:tommy_hashlin_foreach"]}
{"id": "C13", "title": "hashdyn load factor", "statement": "After every call the number of buckets of a tommy_hashdyn is a power of two not less than 16, the load factor is less than 0.5 and, if there are more than 16 buckets, greater than 0.125.", "quantifier": "every history of calls", "why_tests_cant": "the bound must hold after every operation of every history", "anchors": ["tommyds/tommyhashdyn.c:hashdyn_grow_step", "tommyds/tommyhashdyn.c:hashdyn_shrink_step"]}
{"id": "C14", "title": "hashlin load factor", "statement": "After every call the number of elements of a tommy_hashlin is at most half of bucket_max (at most the number of buckets in use) and, when not at the minimal size, the table is never left with less than bucket_max/8 elements without being in the shrinking state; when stable at more than the minimal size the load is at least 1/8.", "quantifier": "every history of calls", "why_tests_cant": "the bound must hold after every operation of every history, in all the three states", "anchors": ["tommyds/tommyhashlin.c:hashlin_grow_step", "tommyds/tommyhashlin.c:hashlin_shrink_step"]}
{"id": "C15", "title": "hashlin resize work per call is bounded by a constant", "statement": "The documentation says that the progressive resize makes insert and delete operations 'taking always the same time': a single insert or remove splits or merges at most a constant number of buckets.", "quantifier": "every reachable state", "why_tests_cant": "worst case work over all histories cannot be measured by running some of them", "anchors": ["tommyds/tommyhashlin.h:28-47", "tommyds/tommyhashlin.c:hashlin_grow_step", "tommyds/tommyhashlin.c:hashlin_shrink_step"]}
{"id": "C16", "title": "hashlin resize work is amortized constant", "statement": "The total number of bucket splits and merges done by any history of n insert/remove calls is at most c*n for a fixed constant c.", "quantifier": "every history of calls", "why_tests_cant": "amortized bounds quantify over all histories", "anchors": ["tommyds/tommyhashlin.c:hashlin_grow_step", "tommyds/tommyhashlin.c:hashlin_shrink_step"]}
{"id": "C17", "title": "Hashtables release all their memory", "statement": "For each of the three hashtables, after any history, done() frees every bucket vector/segment that the table allocated and did not already free, each exactly once, and nothing else.", "quantifier": "every history ended by done(), in every resize state, also with elements still stored", "why_tests_cant": "leaks and double frees depend on the resize history", "anchors": ["tommyds/tommyhashtbl.c:tommy_hashtable_done", "tommyds/tommyhashdyn.c:tommy_hashdyn_done", "tommyds/tommyhashlin.c:tommy_hashlin_done"]}
{"id": "C18", "title": "hashtable_init allocates enough buckets for any request", "statement": "tommy_hashtable_init(n) allocates a vector of at least n buckets, whose number is the smallest power of 2 not less than max(n, 16), so that no later access is out of bounds.", "quantifier": "every requested size n of type tommy_size_t", "why_tests_cant": "2^64 arguments; the multiplication and the rounding wrap only for huge ones", "anchors": ["tommyds/tommyhashtbl.c:tommy_hashtable_init", "tommyds/tommytypes.h:tommy_roundup_pow2_u64"]}
{"id": "C19", "title": "tommy_array is a growing zero initialised vector", "statement": "For every history of grow/set/get/insert on a tommy_array (accessing only positions below size()), no call accesses memory out of the allocated segments and get() returns the last value set at that position, or 0 if it was never set since grow() created it; grow never changes the existing elements.", "quantifier": "every history, every position, every size", "why_tests_cant": "all sizes and positions; errors show only at segment boundaries", "anchors": ["tommyds/tommyarray.c:tommy_array_grow", "tommyds/tommyarray.h:tommy_array_ref", "tommyds/tommyarray.h:tommy_array_insert"]}
{"id": "C20", "title": "Array element addresses never change", "statement": "For the four arrays (array, arrayof, arrayblk, arrayblkof) the address returned by ref(pos) stays the same, valid and owned by position pos after any number of later grow/insert calls.", "quantifier": "every position, every later history of grow/insert/set", "why_tests_cant": "must hold for all later histories", "anchors": ["tommyds/tommyarray.h:tommy_array_ref", "tommyds/tommyarrayof.h:tommy_arrayof_ref", "tommyds/tommyarrayblk.h:tommy_arrayblk_ref", "tommyds/tommyarrayblkof.h:tommy_arrayblkof_ref"]}
{"id": "C21", "title": "Array elements do not overlap and are in bounds", "statement": "For the four arrays, the byte range of the element at any position below size() is inside a live allocated segment, and the ranges of two different positions are disjoint.", "quantifier": "every reachable state, all pairs of positions, every element size", "why_tests_cant": "all pairs of positions of all sizes", "anchors": ["tommyds/tommyarrayof.h:tommy_arrayof_ref", "tommyds/tommyarrayblkof.h:tommy_arrayblkof_ref", "tommyds/tommyarray.h:tommy_array_ref", "tommyds/tommyarrayblk.h:tommy_arrayblk_ref"]}
{"id": "C22", "title": "tommy_arrayof is a growing zero initialised vector of structs", "statement": "For every history of grow calls and of writes through ref() on a tommy_arrayof with any element size, reading any byte of any element below size() gives the last value written to that byte of that element, or 0.", "quantifier": "every element size, every history, every byte of every position", "why_tests_cant": "all element sizes and positions", "anchors": ["tommyds/tommyarrayof.c:tommy_arrayof_grow", "tommyds/tommyarrayof.h:tommy_arrayof_ref"]}
{"id": "C23", "title": "tommy_arrayblk is a growing zero initialised vector", "statement": "Like the tommy_array property, for tommy_arrayblk.", "quantifier": "every history, every position, every size", "why_tests_cant": "all sizes and positions; errors show only at block boundaries", "anchors": ["tommyds/tommyarrayblk.c:tommy_arrayblk_grow", "tommyds/tommyarrayblk.h:tommy_arrayblk_ref"]}
{"id": "C24", "title": "tommy_arrayblkof is a growing zero initialised vector of structs", "statement": "Like the tommy_arrayof property, for tommy_arrayblkof.", "quantifier": "every element size, every history, every byte of every position", "why_tests_cant": "all element sizes and positions", "anchors": ["tommyds/tommyarrayblkof.c:tommy_arrayblkof_grow", "tommyds/tommyarrayblkof.h:tommy_arrayblkof_ref"]}
{"id": "C25", "title": "Arrays release all their memory", "statement": "For the four arrays, after any history, done() frees every segment/block allocated by the array exactly once, and nothing else.", "quantifier": "every history ended by done()", "why_tests_cant": "leaks and double frees depend on the size reached", "anchors": ["tommyds/tommyarray.c:tommy_array_done", "tommyds/tommyarrayof.c:tommy_arrayof_done", "tommyds/tommyarrayblk.c:tommy_arrayblk_done", "tommyds/tommyarrayblkof.c:tommy_arrayblkof_done"]}
{"id": "C26", "title": "Array memory usage is linear", "statement": "The memory of a tommy_array is less than twice the space of the elements plus the initial 64 ones, and the one of a tommy_arrayblk exceeds the space of the elements at most by one block plus the block index; memory_usage() reports exactly the allocated bytes.", "quantifier": "every history of calls", "why_tests_cant": "bound over all sizes", "anchors": ["tommyds/tommyarray.c:tommy_array_memory_usage", "tommyds/tommyarrayblk.c:tommy_arrayblk_memory_usage"]}
{"id": "C27", "title": "Allocator blocks are aligned and disjoint", "statement": "For every history of alloc/free on a tommy_allocator with a non zero block size, every block returned by alloc() is a multiple of the alignment and does not overlap any other block currently allocated, of this or of another allocator of the same heap, even if the user writes any content in the allocated blocks.", "quantifier": "every block size > 0, every alignment, every history of alloc/free, every address returned by malloc, every content written by the user in the live blocks", "why_tests_cant": "all sizes, alignments and malloc addresses", "anchors": ["tommyds/tommyalloc.c:tommy_allocator_alloc", "tommyds/tommyalloc.c:tommy_allocator_free", "tommyds/tommyalloc.c:tommy_allocator_init"]}
{"id": "C28", "title": "Allocator blocks are inside the memory obtained from malloc", "statement": "Every block returned by alloc() is completely inside a segment returned by malloc() and not yet freed.", "quantifier": "every block size > 0, every alignment, every malloc address", "why_tests_cant": "depends on the arithmetic relation of block size, alignment and address returned by malloc", "anchors": ["tommyds/tommyalloc.c:tommy_allocator_alloc"]}
{"id": "C29", "title": "Allocator accounting and reuse", "statement": "memory_usage() is always block size times the number of blocks currently allocated, and alloc() asks new memory to malloc() only when every block ever obtained is currently allocated.", "quantifier": "every history of alloc/free", "why_tests_cant": "all histories", "anchors": ["tommyds/tommyalloc.c:tommy_allocator_memory_usage", "tommyds/tommyalloc.c:tommy_allocator_alloc"]}
{"id": "C30", "title": "Allocator done releases every segment", "statement": "tommy_allocator_done() frees every segment obtained from malloc exactly once and leaves the allocator empty and reusable.", "quantifier": "every history of alloc/free followed by done", "why_tests_cant": "all histories", "anchors": ["tommyds/tommyalloc.c:allocator_reset", "tommyds/tommyalloc.c:tommy_allocator_done"]}
{"id": "C31", "title": "tommy_tree implements an ordered set", "statement": "For every history of insert/remove/remove_existing/search/count on a tommy_tree with a comparison function that is a total preorder, no call has undefined behaviour or runs forever, and every result is the one of a set without equal elements: insert returns the already present equal element or the new one, search and remove return the element equal to the argument or 0, count is the number of elements.", "quantifier": "every history, every total preorder, every node address", "why_tests_cant": "all histories and tree shapes; the rebalancing recursion is mutual and its termination is not obvious", "anchors": ["tommyds/tommytree.c:tommy_tree_insert", "tommyds/tommytree.c:tommy_tree_remove", "tommyds/tommytree.c:tommy_tree_search", "tommyds/tommytree.c:tommy_tree_balance"]}
{"id": "C32", "title": "Tree foreach visits in order", "statement": "tommy_tree_foreach() calls the callback exactly once for each element, in strictly increasing order, and never touches a node after the callback was called on it.", "quantifier": "every reachable tree", "why_tests_cant": "all tree shapes", "anchors": ["tommyds/tommytree.c:tommy_tree_foreach_node"]}
{"id": "C33", "title": "Tree is an AVL tree", "statement": "The documentation says that the tree is a standard AVL tree: in every reachable tree the heights of the two children of a node differ at most by one.", "quantifier": "every reachable tree, every node", "why_tests_cant": "all histories and shapes; the API does not expose the heights", "anchors": ["tommyds/tommytree.h:29-35", "tommyds/tommytree.c:tommy_tree_balance", "tommyds/tommytree.c:tommy_tree_insert"]}
{"id": "C34", "title": "Tree height is logarithmic", "statement": "In every reachable tree with n elements the height, so the number of comparisons of a search, is at most logarithmic in n.", "quantifier": "every reachable tree", "why_tests_cant": "worst case over all histories", "anchors": ["tommyds/tommytree.c:tommy_tree_balance", "tommyds/tommytree.c:tommy_tree_move_right"]}
{"id": "C35", "title": "Tree search_compare", "statement": "tommy_tree_search_compare() with a comparison function that is monotone with respect to the order of the tree returns an element for which it gives 0 if and only if one exists, otherwise 0.", "quantifier": "every reachable tree, every monotone comparison function, every argument", "why_tests_cant": "all trees and suborders", "anchors": ["tommyds/tommytree.c:tommy_tree_search_compare"]}
{"id": "C36", "title": "tommy_trie implements a multimap", "statement": "For every history of insert/remove/remove_existing/search/bucket/count on a tommy_trie with keys below 2^32, no call has undefined behaviour or fails an assert (no out of range shift, no overflow of the path buffer) and every result is the one of the reference multiset in insertion order: search(key) and remove(key) act on the first inserted present element with that key.", "quantifier": "every history, every key in range, every aligned node address and allocator address", "why_tests_cant": "all histories and key sets", "anchors": ["tommyds/tommytrie.c:trie_bucket_insert", "tommyds/tommytrie.c:trie_bucket_remove_existing", "tommyds/tommytrie.c:tommy_trie_bucket"]}
{"id": "C37", "title": "Trie bucket() contains all and only the elements of the key", "statement": "The list returned by tommy_trie_bucket(key) contains exactly the stored elements with that key, in insertion order; the same for tommy_trie_inplace_bucket(key).", "quantifier": "every reachable trie, every key in range", "why_tests_cant": "all histories and key sets", "anchors": ["tommyds/tommytrie.c:tommy_trie_bucket", "tommyds/tommytrieinp.c:tommy_trie_inplace_bucket"]}
{"id": "C38", "title": "Trie inner blocks are exactly accounted and released", "statement": "After any history the inner blocks allocated by a tommy_trie are exactly the ones it uses (node_count of them): when no bucket holds two different keys there is none, and in particular removing all the elements returns every block to the allocator.", "quantifier": "every history of insert/remove", "why_tests_cant": "leaks depend on the history", "anchors": ["tommyds/tommytrie.c:trie_bucket_remove_existing", "tommyds/tommytrie.c:tommy_trie_memory_usage"]}
{"id": "C39", "title": "tommy_trie_inplace implements a multimap", "statement": "For every history of insert/remove/remove_existing/search/bucket/count on a tommy_trie_inplace with keys below 2^32, no call has undefined behaviour or fails an assert and every result is the one of the reference multiset in insertion order.", "quantifier": "every history, every key in range, every node address", "why_tests_cant": "all histories and key sets", "anchors": ["tommyds/tommytrieinp.c:trie_inplace_bucket_insert", "tommyds/tommytrieinp.c:trie_inplace_bucket_remove", "tommyds/tommytrieinp.c:tommy_trie_inplace_bucket"]}
{"id": "C40", "title": "Integer hashes are reversible", "statement": "tommy_inthash_u32 and tommy_inthash_u64 are bijections: two different keys never have the same hash, and every value is the hash of some key.", "quantifier": "every 32 bit / 64 bit key", "why_tests_cant": "2^64 keys", "anchors": ["tommyds/tommyhash.h:tommy_inthash_u32", "tommyds/tommyhash.h:tommy_inthash_u64"]}
{"id": "C41", "title": "hash_u32 and hash_u64 compute lookup3 reading only the key", "statement": "tommy_hash_u32(init, key, len) and tommy_hash_u64() are equal to the byte-wise definition of the Jenkins lookup3 hash (last block padded with zeros) for every key, and read only the len bytes of the key.", "quantifier": "every init value, every byte string", "why_tests_cant": "all byte strings of all lengths", "anchors": ["tommyds/tommyhash.c:tommy_hash_u32", "tommyds/tommyhash.c:tommy_hash_u64"]}
{"id": "C42", "title": "The 64 bit hash extends the 32 bit hash", "statement": "The low 32 bits of tommy_hash_u64(init, key) are tommy_hash_u32(init, key) for every init below 2^32.", "quantifier": "every init value below 2^32, every byte string", "why_tests_cant": "all byte strings of all lengths", "anchors": ["tommyds/tommyhash.c:tommy_hash_u32", "tommyds/tommyhash.c:tommy_hash_u64"]}
{"id": "C43", "title": "String hash depends only on the string", "statement": "tommy_strhash_u32(init, s) is a function of init (modulo 2^32) and of the bytes of s before the terminator: the bytes following the terminator never change the result.", "quantifier": "every init value, every zero terminated string and every content of the memory after it", "why_tests_cant": "all strings and all contents of the following memory", "anchors": ["tommyds/tommyhash.c:tommy_strhash_u32", "tommyds/tommytypes.h:tommy_haszero_u32"]}
{"id": "C44", "title": "String hash reads only the string", "statement": "tommy_strhash_u32() reads no byte after the terminator of the string.", "quantifier": "every zero terminated string", "why_tests_cant": "over-reads are invisible to a functional test", "anchors": ["tommyds/tommyhash.c:tommy_strhash_u32"]}
{"id": "C45", "title": "Bit scan functions", "statement": "The portable implementations of tommy_ilog2_u32/u64 and tommy_ctz_u32/u64 return for every non zero argument the index of the most / least significant bit set (what the compiler builtins return).", "quantifier": "every non zero 32 bit / 64 bit value", "why_tests_cant": "2^64 values", "anchors": ["tommyds/tommytypes.h:tommy_ilog2_u32", "tommyds/tommytypes.h:tommy_ilog2_u64", "tommyds/tommytypes.h:tommy_ctz_u32", "tommyds/tommytypes.h:tommy_ctz_u64"]}
{"id": "C46", "title": "Round up to power of 2", "statement": "tommy_roundup_pow2_u32/u64(v) is the smallest power of 2 not less than v, for every non zero v for which it is representable.", "quantifier": "every 32 bit / 64 bit value from 1 to the highest power of 2", "why_tests_cant": "2^63 values", "anchors": ["tommyds/tommytypes.h:tommy_roundup_pow2_u32", "tommyds/tommytypes.h:tommy_roundup_pow2_u64"]}
{"id": "C47", "title": "haszero is exact", "statement": "tommy_haszero_u32(v) is 1 if and only if one of the four bytes of v is 0.", "quantifier": "every 32 bit value", "why_tests_cant": "2^32 values", "anchors": ["tommyds/tommytypes.h:tommy_haszero_u32"]}
{"id": "C48", "title": "Hashtable calls do not touch foreign memory", "statement": "A call on one of the three hashtables changes only nodes stored in the table or the inserted node; every other node keeps all its fields, and memory allocated before the table keeps its content.", "quantifier": "every call in every reachable state, every other node and vector", "why_tests_cant": "a stray write to a foreign node is invisible unless that very node is checked", "anchors": ["tommyds/tommyhashtbl.c", "tommyds/tommyhashdyn.c", "tommyds/tommyhashlin.c"]}
{"id": "C49", "title": "Hashtable memory usage is exact", "statement": "memory_usage() of the three hashtables is the size of a pointer for each bucket cell of the vectors currently allocated by the table plus the size of a node for each element.", "quantifier": "every reachable state", "why_tests_cant": "the sum of the segments of a progressive resize must match at every step of every history", "anchors": ["tommyds/tommyhashtbl.c:tommy_hashtable_memory_usage", "tommyds/tommyhashdyn.c:tommy_hashdyn_memory_usage", "tommyds/tommyhashlin.c:tommy_hashlin_memory_usage"]}
{"id": "C50", "title": "Hashtable of at most 2^60 buckets (2^29 with 32 bit) behaves as a multiset", "statement": "C08 restricted to the initial sizes for which the size of the bucket vector does not overflow: every history of calls on a tommy_hashtable initialised with at most 2^60 buckets (2^29 in the 32 bit build) has no undefined behaviour and gives the results of the reference multiset in insertion order.", "quantifier": "every initial size up to 2^60 (2^29), every history, every hash value and comparison function, with foreign writes between calls", "why_tests_cant": "unbounded histories and sizes", "anchors": ["tommyds/tommyhashtbl.c"]}
{"id": "C51", "title": "hashlin load factor, exact bounds", "statement": "After every call on a tommy_hashlin twice the number of elements is at most bucket_max + 2 (and this is reached), the elements are not more than the buckets in use, and if there are more than the minimal 64 buckets, the buckets in use are at most 8 times the elements; outside of the shrinking state also bucket_max is at most 8 times the elements.", "quantifier": "every history of calls", "why_tests_cant": "the extreme is reached only by particular histories that change the direction of the resize", "anchors": ["tommyds/tommyhashlin.c"]}
{"id": "C52", "title": "Allocator blocks are aligned and disjoint, on a heap with a pointer of slack", "statement": "For every history of calls on any number of tommy_allocator with non zero block sizes, on a heap where malloc gives at least the size of a pointer of usable bytes more than requested (see C28 for the other ones), every block returned by alloc() is a multiple of the alignment and does not overlap any other memory of the program, that is the blocks currently allocated, of this or of another allocator, and what the program obtained directly from malloc. This even if the program writes any content in all this memory, that the allocators in turn never change.", "quantifier": "every block size > 0, every alignment, every history, every address returned by malloc, every content written by the program in its memory", "why_tests_cant": "any arrangement of the segments and any history of allocations", "anchors": ["tommyds/tommyalloc.c"]}
{"id": "C53", "title": "Sort makes O(N log N) comparisons", "statement": "tommy_list_sort() on a list of n elements calls the comparison function at most n * (floor(log2 n) + 3) times, whatever the comparison function returns.", "quantifier": "every reachable state, every list, every function as comparator (also inconsistent)", "why_tests_cant": "a test measures a few inputs; the worst input for a given length is not known to the test", "anchors": ["tommyds/tommychain.h:tommy_chain_mergesort", "tommyds/tommylist.c:tommy_list_sort"]}
{"id": "C54", "title": "Sort is linear on ordered lists", "statement": "tommy_list_sort() on a list already in order makes exactly n - 1 comparisons and keeps the sequence of the nodes; on a list in strictly decreasing order it makes exactly 2 * (n - 1) comparisons and reverses it.", "quantifier": "every reachable state, every ordered or strictly decreasing list of any length", "why_tests_cant": "the count holds for every length, so for every shape of the tree of the merges", "anchors": ["tommyds/tommychain.h:tommy_chain_merge_degenerated", "tommyds/tommylist.c:tommy_list_sort"]}
{"id": "C55", "title": "Tree insert is logarithmic", "statement": "In every reachable state tommy_tree_insert() on a tree of n elements makes at most 12 * (2 * floor(log2(n + 1)) + 1) calls of the comparison function and of tommy_tree_balance() together, the recursive ones of the rotations included.", "quantifier": "every reachable state, every tree, every inserted element (also one already present)", "why_tests_cant": "the recursion of the balance depends on the shape of the tree, so on the whole history", "anchors": ["tommyds/tommytree.c:tommy_tree_insert", "tommyds/tommytree.c:tommy_tree_balance"]}
{"id": "C56", "title": "Tree remove is of the order of the square of the logarithm", "statement": "In every reachable state tommy_tree_remove() on a tree of n elements makes at most (2 L + 1) (32 L + 2) calls of the comparison function and of tommy_tree_balance() together, with L = floor(log2(n + 1)); and in every non empty tree there is an element whose removal makes at least ((L - 3)^2 - 1) / 4 of them.", "quantifier": "every reachable state, every tree, every key to remove (also not present)", "why_tests_cant": "the cost depends on the shape of the tree; a quadratic logarithm is hard to tell from a logarithm by measuring", "anchors": ["tommyds/tommytree.c:tommy_tree_remove", "tommyds/tommytree.c:tommy_tree_move_right", "tommyds/tommytree.c:tommy_tree_balance"]}
{"id": "C57", "title": "Hashdyn resizes cost constant amortised time", "statement": "In every history of a tommy_hashdyn the buckets visited and the nodes moved by all the resizes are together at most 6 for each call of insert plus 4 for each call of remove or remove_existing; a single call visits and moves at most 4 for each element stored before it, and nothing if it does not change the number of buckets; and this linear cost of a single call is really reached.", "quantifier": "every history of calls, every assignment of hash values, every address of the nodes", "why_tests_cant": "an amortised bound is over all the histories; the worst ones alternate around thresholds", "anchors": ["tommyds/tommyhashdyn.c:tommy_hashdyn_resize", "tommyds/tommyhashdyn.c:hashdyn_grow_step", "tommyds/tommyhashdyn.c:hashdyn_shrink_step"]}
{"id": "C58", "title": "Hashlin moves a constant amortised number of nodes", "statement": "In every history of a tommy_hashlin the nodes moved by the splits of the buckets are in total at most 4 for each call of insert plus 1 for each call of remove or remove_existing, whatever the hash values, although a single insert can move all the nodes of the table.", "quantifier": "every history of calls, every assignment of hash values (also all equal), every address of the nodes", "why_tests_cant": "the bound must hold also for hash values that put all the nodes in one bucket, at every moment of the incremental resize", "anchors": ["tommyds/tommyhashlin.c:hashlin_grow_step", "tommyds/tommyhashlin.c:hashlin_shrink_step"]}
{"id": "C59", "title": "Tries and their allocators work together in one memory", "statement": "A program uses any number of tries with any number of allocators initialised as tommytrie.h says (TOMMY_TRIE_BLOCK_SIZE as size and alignment), in a memory of bytes where nothing more than what is requested to malloc() is usable. The trie structs and the nodes are anywhere in memory of the program, also in blocks of the same allocators. Then every call of the tries and of the allocators is without errors and terminates, the results are the ones of the multimaps, no block returned by an allocator overlaps with memory in use, an insert gets at most one block for each level, a remove gives back only blocks of its own trie and each at most once, no call changes memory of the program other than the struct, the blocks and the nodes with the same key of its own trie, an empty trie has given back all its blocks, and done() of an allocator frees all its segments.", "quantifier": "every history of calls, malloc, free and writes of the program in its own memory; every address returned by malloc that is a multiple of 16 (malloc never fails); every even address of the nodes", "why_tests_cant": "it needs the interaction of two components at the level of the bytes: an overlap of a block with a node shows up only for particular addresses and histories", "anchors": ["tommyds/tommytrie.c", "tommyds/tommytrie.h:tommy_trie_search", "tommyds/tommyalloc.c"]}
{"id": "C60", "title": "Trie operations take constant time", "statement": "Each call of tommy_trie and of tommy_trie_inplace reads and writes a number of words of the tries and of the nodes that is bounded by a function of the number of branches and of the bits of the keys only, whatever the number of elements and their keys: with n = bits / log2(branches) levels and M branches, a search in tommy_trie does at most n + 3 accesses, an insert (M + 3) n + 10, a remove (M + 4) n + 13 and a remove of a given node (M + 4) n + 14; in tommy_trie_inplace, with n one less, a search does at most 2 n + 2, an insert 2 n + M + 9, a remove (M + 3) n + 2 M + 11 and a remove of a given node one more. The bound of the search of tommy_trie is reached, already with two elements.", "quantifier": "every history of calls on any number of tries, every number of elements and choice of the keys, every configuration with a power of two of branches (up to 256, and up to 128 in place) and keys of at most the bits of a size (64 or 32) with at least one level (three in place); the work inside the allocator is excluded", "why_tests_cant": "it is a statement on all the keys and on tries of any size; a benchmark measures random keys", "anchors": ["tommyds/tommytrie.c", "tommyds/tommytrieinp.c", "tommyds/tommy.h"]}
{"id": "C61", "title": "Containers of different kinds share the memory without disturbing each other", "statement": "A program uses any number of lists, trees, hashtables of the three kinds (the fixed ones with at most 2^60 buckets, 2^29 with 32 bit) and tries, with all the tommy_node in one memory; an object with more nodes is in more containers at the same time. In every interleaving of the calls, each call is without errors, terminates, and gives a result that its container gives alone with the same content; it writes only nodes which are in its container and the node to insert; and the state of each container is one that it can reach alone, so all that holds for a container alone holds in the program.", "quantifier": "every family of containers, every interleaving of calls of all of them with allocations, deallocations and writes of the nodes in no container; the memory that the containers get from malloc, and the blocks of the tries, are assumed disjoint", "why_tests_cant": "each container is tested alone: a write of a container to a node of another shows up only in programs that mix them, for particular histories and addresses", "anchors": ["tommyds/tommy.h:Use", "tommyds/tommytypes.h:tommy_node_struct", "tommyds/tommylist.c", "tommyds/tommytree.c", "tommyds/tommyhashtbl.c", "tommyds/tommyhashdyn.c", "tommyds/tommyhashlin.c", "tommyds/tommytrie.c"]}
{"id": "C62", "title": "A search in a hashtable reads only the elements that collide", "statement": "In every state of a hashtable and for every hash h there is a power of two M such that bucket(h) is a list with exactly the stored elements whose hash is congruent to h modulo M, each one once; a search with hash h reads no node of other elements, and the loops of search and remove visit at most as many nodes as they are. For tommy_hashtable M is the number of buckets given to init() (at most 2^60, or 2^29 with 32 bit) rounded up to a power of two, at least 16; for tommy_hashdyn it is the same for all h, at least 16 and more than twice the number of elements; for tommy_hashlin it is at least 64 and not less than the number of elements, also in the middle of a resize. So if the hashes are such that at most c of them are congruent to h modulo each power of two not less than the number of elements, a search with hash h visits at most c nodes (for tommy_hashtable, if init() was given at least as many buckets as the elements); and if the hashes are different and less than the number of elements, it visits at most one.", "quantifier": "every history of calls, every assignment of hash values, every compare function, every state of the resize", "why_tests_cant": "tests see the results of the searches, which are the same if half of the buckets is never used; the exact content of every bucket at each moment of the resize is needed", "anchors": ["tommyds/tommyhashtbl.h:tommy_hashtable_bucket", "tommyds/tommyhashdyn.h:tommy_hashdyn_bucket", "tommyds/tommyhashlin.h:tommy_hashlin_bucket_ref", "tommyds/tommyhashtbl.c:tommy_hashtable_remove", "tommyds/tommyhashdyn.c:tommy_hashdyn_remove", "tommyds/tommyhashlin.c:tommy_hashlin_remove"]}
{"id": "C63", "title": "The documented program with two keys and a list is right", "statement": "In the program of tommy.h for objects with more keys (a struct of two int and three tommy_node, in two tommy_hashdyn with the hash tommy_inthash_u32 of the two values, and in a tommy_list), in every history of allocations, inserts, searches by the one and by the other value, deletes by the second value, iterations and deallocations of objects not stored: no call has errors and all terminate; a search returns the first inserted between the stored objects with the value, 0 if there is none, and the search function is never called on something that is not an allocated object; after a delete the object is in no container; the iterator that goes forward and backward sees the objects in insertion order (backward from the first is the last); the three containers have always the same number of elements; nodes, vectors and cells of others do not change. At the end tommy_list_foreach(&list, free) frees each stored object once, the two done() are right although the nodes in their buckets are already freed, and no memory got by the tables is left.", "quantifier": "every history, every value of the keys (also repeated), every address of the objects that do not overlap, every content of new memory", "why_tests_cant": "it needs three containers that share objects, tables that resize at different moments, and the deallocation of the objects before the tables; the tests have no program of this kind", "anchors": ["tommyds/tommy.h:Use", "tommyds/tommyhashdyn.c", "tommyds/tommyhashdyn.h:tommy_hashdyn_search", "tommyds/tommylist.h", "tommyds/tommyhash.h:tommy_inthash_u32"]}
{"id": "C64", "title": "foreach with free and then done deallocates everything", "statement": "In the use documented for the containers, where the payload of each element is the address of an allocated object that contains the node (and possibly other nodes), foreach with the function free() of the C library, followed by done() for the hashtables, has no errors and terminates: each stored object is freed exactly once, nothing of a freed object is accessed, whatever free() leaves in its memory, no other node changes, and the hashtables give back all the memory they got, also in the middle of a resize of tommy_hashlin.", "quantifier": "every reachable state of tommy_list, tommy_tree, tommy_hashtable (with at most 2^60 buckets, 2^29 with 32 bit, see C18), tommy_hashdyn and tommy_hashlin, every layout of the objects in which the nodes of different objects are different, every content left by free()", "why_tests_cant": "an access after free is silent in most runs; it must be excluded for every shape of the container and phase of the resize", "anchors": ["tommyds/tommylist.h:tommy_list_foreach", "tommyds/tommytree.h:tommy_tree_foreach", "tommyds/tommyhashtbl.h:tommy_hashtable_foreach", "tommyds/tommyhashdyn.h:tommy_hashdyn_foreach", "tommyds/tommyhashlin.h:tommy_hashlin_foreach"]}
{"id": "C65", "title": "The tries store the elements in the order of the key", "statement": "Reading a tommy_trie from its memory, the cells from the first to the last and inside them the blocks in the same way, all the stored elements are found once, in increasing order of the key, and in insertion order for the same key. In tommy_trie_inplace all the stored elements are found once, in insertion order for the same key, and those that are not inner nodes of the trie are in increasing order of the key.", "quantifier": "every history of calls on any number of tries, every configuration with a power of two of branches (up to 256, and up to 128 in place) and keys of at most the bits of a size (64 or 32) with at least one level (three in place)", "why_tests_cant": "the library has no function that iterates on a trie, so no test can see the order", "anchors": ["tommyds/tommytrie.h", "tommyds/tommytrie.c", "tommyds/tommytrieinp.h", "tommyds/tommytrieinp.c"]}
{"id": "C66", "title": "Hashtables can be created and destroyed at any time without disturbing each other", "statement": "A program creates, uses and destroys at any moment any number of hashtables of the three kinds (the fixed ones with at most 2^60 buckets, 2^29 with 32 bit, see C18), in one memory that has the nodes and the vectors of all of them. Every call (init, insert, remove, remove_existing, search, bucket, count, done, and the documented foreach with free followed by done) is without errors, terminates, and gives the result of its table alone; it writes only the nodes stored in its table and the node to insert; foreach visits the elements of its table; the memory usage function of a table counts the vectors that are its own (modulo the range of the size type); each live vector was live at the start or is of exactly one live table, and when no table exists the live vectors are exactly the ones that there were at the start, with the same content.", "quantifier": "every interleaving of creations, calls and destructions of any number of tables of the three kinds, with allocations, deallocations and writes of the nodes in no table, every hash value and compare function; malloc never fails and never returns memory that is in use", "why_tests_cant": "a table that frees, keeps or writes a vector of another one is seen only in programs with more tables of different life, for particular histories", "anchors": ["tommyds/tommyhashtbl.c", "tommyds/tommyhashdyn.c", "tommyds/tommyhashlin.c", "tommyds/tommyhashtbl.h", "tommyds/tommyhashdyn.h", "tommyds/tommyhashlin.h"]}
{"id": "C67", "title": "Exactly when the dynamic hashtables are resized", "statement": "A tommy_hashdyn starts with 16 buckets. In every history a call on a table with b buckets that leaves n elements changes the number of buckets only in two cases: if it has inserted an element and 2 n >= b the buckets become 2 b; if it has removed one, 8 n <= b and b > 16, they become b / 2. A tommy_hashlin starts with 64 buckets, all in use, and stable. An insert that leaves n elements in a table of b buckets not growing, with 2 n > b, starts the growth: a stable table gets 2 b buckets, of which b in use, and one that is shrinking keeps its b buckets. An insert in a growing table of b buckets (also the one that starts the growth) puts in use 2 n buckets, if they are more than those already in use; when 2 n >= b all are in use and the table is stable. A remove that leaves n elements in a table of b buckets not shrinking, with 8 n < b and b > 64, starts the shrink. A remove in a shrinking table of b buckets (also the one that starts the shrink) leaves in use at most 8 n buckets; when 8 n <= b / 2 the buckets become b / 2, all in use, and the table is stable. Nothing else changes these numbers. The vectors allocated by the table always have b cells in total, and memory_usage() tells it.", "quantifier": "every history of calls, every assignment of hash values, every state of the incremental resize", "why_tests_cant": "the thresholds are reached at a few sizes only, from both sides, and in tommy_hashlin they interact with the state of the previous resize", "anchors": ["tommyds/tommyhashdyn.c:hashdyn_grow_step", "tommyds/tommyhashdyn.c:hashdyn_shrink_step", "tommyds/tommyhashlin.c:hashlin_grow_step", "tommyds/tommyhashlin.c:hashlin_shrink_step"]}
{"id": "C68", "title": "The documented thresholds of the dynamic hashtables", "statement": "As tommyhashdyn.h:31-33 and tommyhashlin.h:34-36 say, both the hashtables start with the minimal size of 16 buckets, double their size with a load factor greater than 0.5, and halve it with a load factor lower than 0.125.", "quantifier": "every history of calls", "why_tests_cant": "the tests of the library check the results and not the sizes", "anchors": ["tommyds/tommyhashdyn.h", "tommyds/tommyhashlin.h", "tommyds/tommyhashdyn.c:hashdyn_grow_step", "tommyds/tommyhashlin.c:tommy_hashlin_init"]}
{"id": "C69", "title": "The integer hashes compute the published functions, and the key can be computed back from the hash", "statement": "tommy_inthash_u32 is the 4-byte hash of Robert Jenkins and tommy_inthash_u64 the 64 bit hash of Thomas Wang, written as products by odd constants modulo 2^32 and 2^64 and xors with the value divided or multiplied by a power of two. An explicit function gives back the key from the hash, and each value is the hash of the key so computed.", "quantifier": "all the 2^32 keys of 32 bits and all the 2^64 keys of 64 bits", "why_tests_cant": "2^64 keys cannot be enumerated; a wrong shift leaves a function that is still a good hash, and often still reversible", "anchors": ["tommyds/tommyhash.h:tommy_inthash_u32", "tommyds/tommyhash.h:tommy_inthash_u64"]}
{"id": "C70", "title": "The functions of the chains", "statement": "tommy_chain_concat and tommy_chain_splice append a chain to another and put it between two consecutive nodes, writing only the links of the nodes at the joints. tommy_chain_merge takes from the second chain only while its node is strictly less, with any function as comparator. tommy_chain_merge_degenerated gives the same chain of tommy_chain_merge if the two are ordered (and may not if they are not), that is the stable sort of the two. tommy_chain_mergesort gives the stable sort of a chain, and with any comparator a chain of the same nodes. The undefined fields of a chain (prev of the head, next of the tail) are never used, and no other field of no other node is written.", "quantifier": "every pair of disjoint chains of nodes in any memory, with any content of the undefined fields; every comparator (total preorders for the order)", "why_tests_cant": "the chains exist only inside tommy_list_sort, where the undefined fields have always the values left by the list", "anchors": ["tommyds/tommychain.h:tommy_chain_splice", "tommyds/tommychain.h:tommy_chain_concat", "tommyds/tommychain.h:tommy_chain_merge", "tommyds/tommychain.h:tommy_chain_merge_degenerated", "tommyds/tommychain.h:tommy_chain_mergesort"]}
{"id": "C71", "title": "Removing by key from a trie is the bucket and the remove of its first node, with less accesses", "statement": "tommy_trie_remove(key) returns the same value and leaves exactly the same memory, trie and allocator of tommy_trie_bucket(key) followed, if it is not 0, by tommy_trie_remove_existing() of the node returned; and it does less accesses to the memory: exactly those of tommy_trie_bucket() less, if an element has the key, and the same if none has it. The same for tommy_trie_inplace, where a stored key saves one more access.", "quantifier": "every history of calls on any number of tries, every configuration of the tries and of the keys of C36 and C39, every key", "why_tests_cant": "the equality is of the whole memory, for every shape of the trie; a benchmark shows the times of some keys", "anchors": ["tommyds/tommytrie.h:tommy_trie_remove", "tommyds/tommytrie.c:trie_bucket_remove_existing", "tommyds/tommytrieinp.h:tommy_trie_inplace_remove", "tommyds/tommytrieinp.c:trie_inplace_bucket_remove"]}
{"id": "C72", "title": "The variants for the compilers and the processors are the same functions", "statement": "tommy_ilog2 and tommy_ctz give the same result in the MSVC, GCC and portable variants, in the 32 and the 64 bit builds: the position of the most and of the least significant bit set, which is the one that the other functions of the library expect. The x86 variant of tommy_le_uint32_read(), one load possibly not aligned, gives at every address the same value of the portable variant, that reads four bytes.", "quantifier": "every non zero value of 32 and 64 bits; every content of the memory and every address", "why_tests_cant": "a test runs with one compiler on one processor; 2^64 values", "anchors": ["tommyds/tommytypes.h:tommy_ilog2_u32", "tommyds/tommytypes.h:tommy_ilog2_u64", "tommyds/tommytypes.h:tommy_ctz_u32", "tommyds/tommytypes.h:tommy_ctz_u64", "tommyds/tommyhash.c:tommy_le_uint32_read"]}
{"id": "C73", "title": "The documented hash for near keys", "statement": "As tommy.h:329-336 says of hash(v), that is tommy_inthash_u32(v & ~0xF) + (v & 0xF): keys that differ only by the four lowest bits have hashes that differ only by the four lowest bits.", "quantifier": "every pair of keys of 32 bits", "why_tests_cant": "it is false only for the keys where the sum has a carry; 2^28 groups of keys", "anchors": ["tommyds/tommy.h", "tommyds/tommyhash.h:tommy_inthash_u32"]}
{"id": "C74", "title": "The searches in the hashtables read in the average a constant number of nodes", "statement": "tommy.h:279-280 says that the searches in the hashtables are almost constant and don't grow. Counting the nodes read by tommy_*_search() exactly: a search that finds nothing, in the average on all the hash values, reads less than 1/2 node in tommy_hashdyn, at most 1 in tommy_hashlin, also in the middle of a resize, and exactly the load factor in tommy_hashtable, whatever the hashes of the elements are; the searches of all the elements, in the average on all the assignments of hashes to them, read less than 5/4 nodes each in tommy_hashdyn, and less than 3/2 in tommy_hashlin and in tommy_hashtable with at most as many elements as the buckets asked.", "quantifier": "every history of calls, any number of elements; all the 2^32 or 2^64 hash values; for the elements, all the assignments of hash values and any history for each of them", "why_tests_cant": "the average is on all the hash values and on all the assignments, (2^64)^n of them; a benchmark shows the time of one", "anchors": ["tommyds/tommy.h", "tommyds/tommyhashtbl.h:tommy_hashtable_search", "tommyds/tommyhashdyn.h:tommy_hashdyn_search", "tommyds/tommyhashlin.h:tommy_hashlin_search"]}
{"id": "C75", "title": "Hashtables in one memory of bytes, with a malloc() that uses again the memory freed", "statement": "With the structs of any number of tommy_hashtable, tommy_hashdyn and tommy_hashlin, their nodes and their vectors of buckets all in one memory of bytes, where the structs and the nodes are at any place of the memory of the program that no table uses, the program writes what it likes in its other bytes, and malloc() may return any memory not in use (also what a table just freed): every call terminates without errors, returns what the multimap stored contains, asks malloc() only for the new buckets, and frees only what the table got. The tables never share a byte; a call changes only the struct, the nodes and the vectors of its table and the node inserted; the usage is the memory owned plus the nodes; the documented destroy (foreach with free, then done) frees each object and all that the table got; without tables only the memory of the program is in use.", "quantifier": "every history of calls on any number of tables of the three kinds mixed with malloc(), free(), reads and writes of the program; every address that malloc() may return, every content of the memory; tommy_hashtable with any number of buckets whose vector fits the address space; 32 and 64 bit builds", "why_tests_cant": "an overlap depends on the addresses returned by malloc(), and on writes done after a free in memory used again", "anchors": ["tommyds/tommyhashtbl.c:tommy_hashtable_insert", "tommyds/tommyhashdyn.c:tommy_hashdyn_resize", "tommyds/tommyhashlin.c:hashlin_grow_step", "tommyds/tommyhashlin.c:hashlin_shrink_step", "tommyds/tommyhashlin.h:tommy_hashlin_pos", "tommyds/tommyhashdyn.c:tommy_hashdyn_foreach"]}
{"id": "C76", "title": "The text of the hashtables in C does what the property of the hashtables in bytes says", "statement": "The source text of the lists and of the three hashtables (tommylist.h, tommyhashtbl.h/c, tommyhashdyn.h/c, tommyhashlin.h/c, and the functions of tommytypes.h and tommylist.c that they use), executed with the meaning that the C language gives to it (integer promotions and conversions, modular and signed arithmetic, layout of the structs, pointers, calls by pointer, malloc/calloc/free/memset and the builtins of the compiler) in a memory of bytes: every call of a program with any number of tables is without undefined behaviour, terminates, returns what the multimap stored contains, asks malloc() only for the new buckets, and frees only what the table got. It writes only the struct, the nodes and the vectors of its table and the node inserted, and after done all is released. The comparison function is called only with the argument of the client and a payload.", "quantifier": "every history of calls on any number of tables of the three kinds mixed with malloc(), free(), reads and writes of the program, as for the hashtables in bytes; every address that malloc() may return and every content of the memory; every comparison function which returns an int; every address of the functions and every argument; 32 and 64 bit builds of GCC", "why_tests_cant": "what is executed is the text of each function, for all the memories and all the histories", "anchors": ["tommyds/tommylist.h:tommy_list_remove_existing", "tommyds/tommyhashtbl.c:tommy_hashtable_remove", "tommyds/tommyhashdyn.c:tommy_hashdyn_resize", "tommyds/tommyhashlin.c:hashlin_grow_step", "tommyds/tommyhashlin.c:hashlin_shrink_step", "tommyds/tommyhashlin.h:tommy_hashlin_pos", "tommyds/tommytypes.h:tommy_ilog2"]}
{"id": "C77", "title": "The text of the hash functions and of the bit functions in C does what their properties say", "statement": "The source text of tommyhash.h and tommyhash.c, in both its variants for the read of 4 bytes, and of the bit functions of tommytypes.h, executed with the meaning that the C language gives to it in a memory of bytes: tommy_hash_u32 and tommy_hash_u64 return lookup3 of the bytes of the key; tommy_strhash_u32 returns the hash of the string, when the group of 4 bytes with the terminator can be read; tommy_inthash_u32 and tommy_inthash_u64 are bijections; tommy_ilog2_*, tommy_ctz_* and tommy_roundup_pow2_* return the highest bit, the lowest bit and the smallest power of two; tommy_haszero_u32 says if there is a byte 0. All without undefined behaviour, reading nothing but the key (the group of 4 bytes for the strings) and writing nothing.", "quantifier": "every key and every length, at every address, also not aligned; every initial value; every content of the rest of the memory; for the bit functions every value in their domain; 32 and 64 bit builds of GCC", "why_tests_cant": "what is executed is the text of each function, for all the keys and all the values", "anchors": ["tommyds/tommyhash.c:tommy_hash_u32", "tommyds/tommyhash.c:tommy_hash_u64", "tommyds/tommyhash.c:tommy_strhash_u32", "tommyds/tommyhash.c:tommy_le_uint32_read", "tommyds/tommyhash.h:tommy_inthash_u32", "tommyds/tommyhash.h:tommy_inthash_u64", "tommyds/tommytypes.h:tommy_ilog2_u32", "tommyds/tommytypes.h:tommy_ctz_u64", "tommyds/tommytypes.h:tommy_roundup_pow2_u32", "tommyds/tommytypes.h:tommy_haszero_u32"]}
{"id": "C78", "title": "The text of tommytree in C does what the property of the trees says, in a memory of bytes", "statement": "The source text of tommytree.h and tommytree.c, executed with the meaning that the C language gives to it in one memory of bytes, where a program puts the structs of any number of trees and their nodes at any place, and does anything with the other bytes between the calls: every call of init, insert, remove, remove_existing, search, search_compare, count and memory_usage is without undefined behaviour, terminates, and returns what the set stored contains. It calls neither malloc() nor free(); the regions of the program stay the same, and in them it writes only the struct and the nodes of its tree and the node inserted (nothing, if it only searches). The trees never share a byte, no two elements of a tree are equal, and the payload of each element is always in its node. foreach calls the function of the client on the elements in order, once each, also if the function deallocates the element.", "quantifier": "every history of calls on any number of trees with any comparison functions (total preorders which return an int), mixed with any change of the other memory by the program; every place of the structs, of the nodes and of the local variable whose address is taken, and every content of the memory; 32 and 64 bit builds of GCC", "why_tests_cant": "what is executed is the text of each function, for all the memories, all the shapes of the tree and all the histories", "anchors": ["tommyds/tommytree.c:tommy_tree_insert", "tommyds/tommytree.c:tommy_tree_remove", "tommyds/tommytree.c:tommy_tree_balance", "tommyds/tommytree.c:tommy_tree_remove_existing", "tommyds/tommytree.c:tommy_tree_search_compare", "tommyds/tommytree.c:tommy_tree_foreach", "tommyds/tommytree.h:tommy_tree_count"]}
{"id": "C79", "title": "The text of the four arrays in C does what the properties of the arrays say, in a memory of bytes", "statement": "The source text of tommyarray, tommyarrayof, tommyarrayblk and tommyarrayblkof (.h and .c), executed with the meaning that the C language gives to it in one memory of bytes, where a program puts the structs of any number of arrays of the four types at any place of its memory, also inside the elements of another array, and does anything with the other bytes and with the elements between the calls: every call of init, grow, insert, ref, get, set, size, memory_usage and done is without undefined behaviour and terminates. Each element is in one piece of the memory allocated by its array, apart from the other ones, and never moves; the elements added by grow are zero; get, size and memory_usage return the element, the number of elements and the bytes allocated; a call asks malloc() exactly for the segments and the blocks that are missing, and done frees all that the array allocated and nothing else. A call changes no other byte: neither the elements already present, nor another array, nor the memory of the program.", "quantifier": "every history of calls on any number of arrays of the four types, mixed with any change by the program of the elements and of its memory; every size of the elements greater than 0 and every number of elements whose memory malloc() can give; every place of the structs, every address that malloc() may return and every content of the memory; 32 and 64 bit builds of GCC", "why_tests_cant": "what is executed is the text of each function, for all the memories, sizes and histories; the pointers of the segments are out of their bounds and a test sees only the ones of few sizes", "anchors": ["tommyds/tommyarray.c:tommy_array_grow", "tommyds/tommyarray.h:tommy_array_ref", "tommyds/tommyarrayof.c:tommy_arrayof_grow", "tommyds/tommyarrayof.h:tommy_arrayof_ref", "tommyds/tommyarrayblk.c:tommy_arrayblk_grow", "tommyds/tommyarrayblk.h:tommy_arrayblk_ref", "tommyds/tommyarrayblkof.c:tommy_arrayblkof_grow", "tommyds/tommyarrayblkof.c:tommy_arrayblkof_done"]}
{"id": "C80", "title": "The text of the allocator in C does what the properties of the allocator say, in a memory of bytes", "statement": "The source text of tommyalloc.c, executed with the meaning that the C language gives to it in one memory of bytes, where a program puts the structs of any number of allocators at any place of its memory, also inside the blocks of another allocator, and does anything with the other bytes and with the blocks in use between the calls, and where malloc() gives exactly the bytes requested: as long as the block sizes and the addresses returned by malloc() are such that the blocks which the code puts in a segment are inside it (without this the code goes out of the segment, see C28), every call of init, alloc, free, memory_usage and done is without undefined behaviour and terminates. alloc returns a block that is aligned, inside a segment of the allocator and apart from every block in use, also of the other allocators; it calls malloc() only when all the blocks that it ever returned are in use and the segments are filled, and it asks for the right size; memory_usage returns the number of blocks in use times their size; done frees each segment exactly once and nothing else. A call changes no other byte: neither the blocks in use, nor another allocator, nor the memory of the program.", "quantifier": "every history of calls on any number of allocators, mixed with any change by the program of the blocks in use and of its memory; every block size greater than 0 and every alignment that do not overflow, and every address that malloc() may return, for which the blocks fit in the segment; every place of the structs and every content of the memory; 32 and 64 bit builds of GCC", "why_tests_cant": "what is executed is the text of each function, for all the memories, sizes, addresses and histories", "anchors": ["tommyds/tommyalloc.c:tommy_allocator_init", "tommyds/tommyalloc.c:tommy_allocator_alloc", "tommyds/tommyalloc.c:tommy_allocator_free", "tommyds/tommyalloc.c:tommy_allocator_done", "tommyds/tommyalloc.c:tommy_allocator_memory_usage"]}
{"id": "C81", "title": "The text of the lists in C does what the property of the lists says, in a memory of bytes", "statement": "The source text of tommylist.h, executed with the meaning that the C language gives to it in one memory of bytes, where a program puts any number of lists and their nodes at any place, and does anything with the other bytes (the field data of the nodes included) between the calls: every call of init, head, tail, insert_head, insert_tail, remove_existing, concat, empty and count is without undefined behaviour, terminates, and returns what the sequences of nodes say. It calls neither malloc() nor free(), and writes only the list, the fields next and prev of its nodes, and the fields next, prev and data of the node inserted. After every call the nodes are linked as documented: by next from the first to the last, ended by 0, and by prev backward, with the last one from the first. foreach and foreach_arg call the function of the client on the data of the nodes in order, once each, also if the function deallocates the node.", "quantifier": "every history of calls on any number of lists, mixed with any change of the other bytes and of the regions of the program; every content of the memory and every address, of lists, nodes and functions; for foreach every function that leaves alone the nodes not yet visited; 32 and 64 bit builds of GCC", "why_tests_cant": "what is executed is the text of each function, for all the memories and all the histories", "anchors": ["tommyds/tommylist.h:tommy_list_init", "tommyds/tommylist.h:tommy_list_tail", "tommyds/tommylist.h:tommy_list_insert_head", "tommyds/tommylist.h:tommy_list_insert_tail", "tommyds/tommylist.h:tommy_list_remove_existing", "tommyds/tommylist.h:tommy_list_concat", "tommyds/tommylist.h:tommy_list_count", "tommyds/tommylist.h:tommy_list_foreach", "tommyds/tommylist.h:tommy_list_foreach_arg"]}
