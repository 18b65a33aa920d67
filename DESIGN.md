# TommyDS in Lean 4: design, trusted base, findings

## 1. Approach

The library is a set of intrusive containers, so the model is *pointer level*: a C function becomes a Lean
function over an explicit memory, with the same sequence of loads and stores, in the monad `StateT Mem Option`.
`none` is the bad outcome: undefined behaviour (null or invalid dereference, access out of bounds, read of memory
not initialised, out of range shift, double free), failed `assert`, or non termination (unbounded loops and
recursions are `partial_fixpoint`, the least fixed point in `Option`).  Every theorem of the form "the call
`= some _`" therefore says that none of these happens.

Layers (`lean/Verif/`):

* `Model/*.lean`: the model, function by function, each definition citing the C lines.
* `Spec/*.lean`: small independent specifications (sequences, multisets in insertion order, ordered sets, byte-wise
  lookup3, vectors, pools of blocks), the legal histories of calls, and the driver that runs a call on the model.
* `Proof/*.lean`: representation predicates, invariants, lemmas.
* `C/*.lean`: syntax and semantics of the part of C used by the lists, the hashtables and the hash functions, and their text, translated (C76, C77).
* `Props/*.lean`: the theorems of the properties, each with an `example` showing that a concrete non trivial
  case meets the hypotheses.

`Spec/Sys.lean` says what "correct for every history" means: a `Sys` puts side by side the program (concrete states
and `step`) and the specification (abstract states, `legal`, `allowed`, `next`); `Sys.Correct` says that every legal
call in every state reachable by any finite history of legal calls returns, and with an allowed result.  Between
the calls the history may contain *foreign writes*: arbitrary stores to the nodes that are not in a container (with
any content left in the freed memory), allocation and deallocation of nodes.

Proofs are by induction over the history with an invariant, and inside a call by induction over the structure
(list, tree, levels, bits, blocks).  No property is settled by enumeration; the only finite tables checked by the
kernel are the 32 entries of the two de Bruijn tables (C45), lifted by a lemma to every argument.

## 2. Properties: what is modelled, how it is proved

Status: P proved, N = the property is false of the code (negation proved with a witness, true part proved with the
suffix `_partial`), H = proved only under a hypothesis that the property does not have (see 2.1).

| id | status | model and proof |
|---|---|---|
| C01 C02 C07 | P | `Model/List` (tommylist.h/.c): any number of lists in one heap. Invariant: each list variable is a doubly linked list (circular `prev`) of distinct nodes, lists pairwise disjoint. C07 from the frame of each operation |
| C03 C04 C05 | P | tommychain.h merge sort: `chainMerge` by the loop invariant "prefix merged, the rest untouched", carry loop by "bucket k holds a stable sorted permutation of a block of consecutive elements". C05 uses only the structural half, for any comparator |
| C06 | P | foreach and foreach_arg with a callback that is an arbitrary memory transformer which leaves alone the nodes not yet visited |
| C08 C11 C12 (N) C17 C48 C49 (P) | | `Model/Hashtable`, `Hashdyn`, `Hashlin` on vectors of cells possibly not initialised. Invariant: each bucket is the filter, in insertion order, of the abstract list. A generic layer (`Proof/HashSys`) derives the properties from one structure of obligations filled three times |
| C09 C13 | P | same, plus the lemmas of the two directions of `tommy_hashdyn_resize` |
| C10 (P) C14 (N) | | same, with the segments, the offset pointers (`&segment[-low_max]`) and the split state |
| C15 | N | counter of splits and merges: for each k from 6 to 57 there is a history whose last insert splits 2^k - 8 buckets, so no constant below 2^56 is a bound; at most 8 out of that case |
| C16 | P | potential function on `ReachCost` |
| C18 | N | `hashtable_init` with more than 2^60 buckets: `bucket_max * sizeof(ptr)` overflows; proved up to 2^60 |
| C19 C20 C21 C22 C23 C24 (N) C25 C26 (P) | | `Model/Array`, `Arrayblk`: the four arrays on vectors of pointers or of bytes, with the address arithmetic of `ilog2` |
| C27 C29 C30 (N) | | `Model/Alloc`: byte level memory, any address from malloc. Invariant: the blocks of the segments are the used ones plus the free list |
| C28 | N | the last block of a segment may exceed it by up to 8 bytes; exact condition (`Room`) and bound proved |
| C31 C32 C35 | P | `Model/Tree`: mutual recursion of balance and rotations on the heap, simulated by a functional tree for which the termination and the order are proved by induction |
| C33 | N | three inserts in increasing order give a chain; the true bound on the difference is two |
| C34 | P | Fibonacci like lower bound on the number of elements by height, then `2 log2(n+1) + 1` |
| C36 C37 C38 | P | `Model/Trie`: tagged pointers, path buffer, allocator as a stream of arbitrary addresses, for any `TREE_MAX` power of two up to 256 and any number of bits up to 64. Invariant: inductive representation of the buckets by levels; C38 counts the blocks as a function of the set of the keys |
| C39 C37 | P | `Model/TrieInp`: children arrays inside the nodes; same technique; removal replaces the node by its next duplicate or by a leaf |
| C40 | P | each step of the two mixers is a bijection of `BitVec`, explicit inverse constants |
| C41 C42 C43 | P | the word-wise code equals a byte-wise definition of lookup3 (`Spec/Lookup3`), checked on the published vectors; the memory out of the key is `none` |
| C44 | N | reads up to 3 bytes after the terminator; exact bound proved |
| C45 C46 C47 | P | smearing lemmas and bit-wise arguments for every argument; the GCC branches with the documented meaning of the builtins |

Properties added later are described in section 7.

### 2.1 Hypotheses added to the properties, and properties reworded

The first wording of three properties turned out not to hold, and on the way they were reworded to what could be proved and
listed as proved. Now the first wording is back, as partial, and the reworded ones are separate properties:

* C08 had "every initial size", reduced to 2^60 buckets: now C50. Above, the table is created and a search is out of bounds (`C08_hashtable_false`).
* C14 had "at most half of bucket_max", which is false by one element (`C14_hashlin_load_false`): the bounds that hold are C51.
* C27 had no hypothesis on malloc; the theorem assumes 8 usable bytes more than requested: now C52. Without them the first
  alloc of blocks of 8 bytes accesses memory out of the segment (`C27_false`).

Others were listed as proved although their theorems assume more than the property says, and are now partial:

* C11, C12 assume for tommy_hashtable at most 2^60 initial buckets; above they are false (`C11_bucket_hashtable_false`,
  `C12_foreach_hashtable_false`), as no bucket can be accessed. For the same reason the table stays empty and C17 and C48 hold
  with any size;
* C29 (the reuse), C30 assume `RoomFor`, that is the slack of C52 or block sizes that leave 8 bytes in the segment. On a heap
  where only the requested bytes are usable, and regions may be adjacent, both are false (`C29_reuse_false`, `C30_false`); the
  memory usage of C29 is right on every heap (`C29_usage`);
* C19 - C24 have theorems with the hypothesis `fits` on the argument of grow. For array and arrayof it excludes sizes whose
  segments exceed 2^64 bytes, that no calloc can satisfy (the code does not check: `C19_array_false`, `C22_arrayof_false`).
  For arrayblk and arrayblkof it excludes counts above 2^64 - 4096, where the code computes 0 blocks: grow of an empty
  array allocates nothing, sets the size, and every access fails (`C23_arrayblk_false`, `C24_arrayblkof_false`,
  `C20_C21_arrayblk_false`, `C20_C21_arrayblkof_false`).

C20, C21 (for array and arrayof), C25, C26 and C49 are proved without these limits in **a memory of 2^64 bytes**: all the
objects live at the same time are less than 2^64 bytes, and an allocation that exceeds them has no outcome. In the rest of
the model nothing limits the sum of the vectors. For the arrays it is `Spec/ArrayFull` (`machine`: the same program where
a step that exceeds the memory is `none`, and any argument of grow is legal); for the hashtables it is the hypothesis
`Bounded` on the state. C25 and C26 then hold in every reachable state, also in the ones of arrayblk and arrayblkof after
a grow that overflows.

## 3. What is modelled and what is not

All the functions defined in `/repo/tommyds/*.h` and `*.c` are modelled (`tools/checkcites.py` lists the 154
functions, checks that each one is cited by a definition and that the cited lines are exactly those of the function).

**Both the builds.** The models, the specifications and the theorems are for the two values of `TOMMY_SIZE_BIT`: `Arch`
(Model/Arch.lean) is 32 or 64 bit, and the sizes are `sizeBit`, `ptrSize` and `nodeSize`; a theorem with the instance
argument `[Arch]` holds for both (`maxBuckets` is 2^60 or 2^29). In this text and in the notes of the manifest the
numbers 2^60, 2^63, 2^64, 8 and 32 bytes are the ones of the 64 bit build; in the other one they are 2^29, 2^31, 2^32, 4
and 16. Only for 64 bit are: the witnesses `C29_reuse_false` and `C30_false` of tommyalloc, `C60_trie_default_bounds` (its
numbers for 32 bit are in `C60_trie_default_bounds32`) and some of the concrete examples. `C45_*`, `C43_*` and `C44_*` are
about functions with the width in the name, and do not depend on the build.

Not modelled:

* `tommytypes.h`: typedefs, `tommy_cast`, and the macros of the allocation functions (`tommy_malloc`... are the model
  of malloc itself);
* failure of malloc/calloc/realloc: the library does not check; allocations always succeed in the model, except for a
  `calloc` of 2^sizeBit bytes or more in the arrays, which is `none`;
* the tests and the benchmark (`check.c`, `benchmark.cc`) and the documentation in `tommy.h`;
* concurrency: the library has none.

Simplifications of the model, each one also stated where it is made:

* the fields of a node are independent cells of an object identified by its address (strict aliasing and padding are
  not an issue because nodes are accessed only as nodes); nodes have the size of `tommy_node`, 32 bytes (16 in the 32 bit build), which
  gives the bound of 2^59 (2^28) on their number (for tommytrieinp nodes are bigger; the same, weaker, assumption is used);
* vectors (hashtables, arrays) and cell arrays (tries) are objects that never overlap nodes or each other; the memory is made
  of bytes for tommyalloc, as the overlap of objects is what its properties are about, in the second model of tommytrie
  (C59), where the objects are the ones that the code of the allocator returns, and in the second model of the hashtables (C75);
* a struct of a container (`tommy_hashdyn*`...) passed by pointer is a value returned changed; it is distinct from the
  memory of the nodes (in C75 also the structs of the hashtables are bytes of the memory). The buckets of the two tries, whose address is taken, are in memory;
* comparison and search functions are pure functions of the payloads (`data`); callbacks of foreach are arbitrary
  memory transformers;
* the counter of `tommy_list_count` is unbounded;
* computing the out of bounds pointer `&segment[-low_max]` is accepted (only its dereference out of the bounds is UB).
  ISO C says that the computation itself is undefined; every compiler for flat memory accepts it;
* misaligned accesses are tolerated by the model of the allocator; the alignment is a separate statement in C27.

## 4. Trusted base

* The kernel of Lean 4.33.0 (the build is replayed by `vcheck`).
* Axioms: every theorem depends at most on `propext`, `Classical.choice`, `Quot.sound`; `AXIOMS.md` has the list for each
  theorem of the manifest, generated by `tools/axioms.py`. No own axiom, no `sorry`, no `native_decide`, no `bv_decide`,
  no `implemented_by`, no `unsafe`.
* The fidelity of the definitions in `Model/` to the C code, read by hand: the C code was neither compiled nor run. For the lists
  and the hashtables C76 proves that the text does what `Model/HashFlat.lean` does, for the hash functions C77 the same of `Model/Hash.lean`, for the trees C78 of `Model/Tree.lean`, for the arrays C79 proves the properties of the text without a model, for the allocator C80 those of the text with `Model/Alloc.lean`, and for the lists C81 those of the text without a model; there the trusted part is the translator
  `tools/c2lean.py` (a preprocessor and a parser; it has no cases that depend on the function, and each definition that it writes has the C text
  in its comment, to be compared), and the semantics `Verif/C/Sem.lean`.
* The statements: `Spec/` and `Props/`. All of them are compiled with `autoImplicit false`.

## 5. Disagreements between the documentation and the code (findings)

1. **tommyalloc.c:81-133** `size` is not decreased by the `sizeof(entry)` header: the last block of a segment can exceed the
   segment by up to 8 bytes (`C28_false`). With blocks of 8 bytes and alignment 8 the *first* returned block is wholly out of
   the 4032 bytes requested (`C28_outside`). If the bytes after the segment belong to something else, writing in the block
   corrupts it: done() of another allocator follows a wrong pointer (`C30_false`), or free blocks are lost (`C29_reuse_false`). It works on glibc because malloc rounds up the size. Blocks of 64 bytes with
   alignment 64 and malloc aligned to 16, the use made for tommytrie, always fit (`C28_trie_partial`). `block_size` 0 is an
   infinite loop; an alignment not multiple of 8 gives misaligned accesses.
2. **tommyhashlin.c:89-175** an insert in the shrinking state can split a huge number of buckets in one call (`C15_hashlin_no_constant`),
   against "taking always the same time" (up to 2^57 - 8 buckets); the amortised cost is constant (C16). The load factor can exceed 0.5 by one element.
   The header says that the minimal size is 16 buckets, it is 64 (`C68_hashlin_start_false`).
   tommyhashdyn.h says that the size is doubled above 0.5 and halved below 0.125: it is also at these values (`C68_doubles_at_half_false`, `C68_halves_at_eighth_false`).
3. **tommyhashtbl.c:36-54** more than 2^60 buckets overflow the size passed to malloc (`C18_init_buckets_false`).
4. **tommytree.c:42-48** a null child has the same level 0 as a new leaf, so the tree is not AVL in the documented
   sense (`C33_false`); the difference is at most two and the height is logarithmic. `tommy_tree_insert` overwrites the fields
   of the passed node even when an equal element is already present (so passing a node already in the tree corrupts it).
   `tommy_tree_remove_existing` asserts `data != 0`. The removal of the root costs of the order of the square of the logarithm
   (`C56_tree_remove_lower`, for every tree), and not of the logarithm as in a standard AVL tree.
5. **tommyhash.c:168-240** `tommy_strhash_u32` reads up to 3 bytes after the terminator (`C44_false`). The high 32 bits of its
   `init_val` argument are ignored, although it is declared `tommy_uint64_t`.
6. **tommytrie.c** the first level of inner blocks tests again bits already used by the bucket index: a crowded bucket always has
   one block with only one child (two keys that differ in the last bit use 10 blocks of 64 bytes). The same for tommytrieinp.
   Keys of more than 32 bits fail an assert (`C36_trie_key_limit`, `C39_trieinp_key_limit`): without asserts they are an
   access out of bounds.
7. **tommyarrayblk.c:50-76** `count + 4095` overflows for counts above 2^64 - 4096 (`C23_arrayblk_false`); the same in tommyarrayblkof.c.
8. **tommyhashtbl.h:247, 255** the example of tommy_hashtable_foreach calls tommy_hashdyn_insert and tommy_hashdyn_done on a tommy_hashtable:
   the pointers are to incompatible structs (a constraint violation; the fields are not the same either). C64 is on the functions of tommy_hashtable.
9. **tommylist.h:263-290** concatenating a list to itself is not allowed (the documentation does not say it): excluded by `legal`.

## 6. Mutation testing

`tools/mutate.py` applies to a scratch copy of the model one realistic bug at a time, rebuilds everything, and appends a
line to `seeded/LOG.jsonl` (definition, edit, claim broken, declarations that fail, theorems that are no longer
proved, theorems tightened). The mutations are in `seeded/mutations/*.json`. A mutation is "killed" when the build fails:
this says that the *proof* no longer goes through, so for each one the log also says which claim becomes false and why.

The proof of a mutant could fail although the theorem is still true of it. So `tools/execmut.py` also executes the mutants: the
programs in `seeded/harness` run the models on random legal histories and check the statements of the properties (results,
frame, memory usage, costs). The field `executed` of the log has the outcome: a mutant that is `refuted` really violates the
statement. Of the recorded mutants of the models, one was not executed (its edit is no longer applicable to the model), and those not refuted are:
- five equivalent ones (`not refuted: equivalent`), and two with a different order of independent operations (`chainSplice`, `inthashU64`);
- one that clears the last fields of the struct of a trie in the model of C59 (these fields are not in its bytes);
- two that make a multiplication of an integer hash even (the pairs that collide are too rare to be sampled), and twelve that only change the
  counters of C53 - C56;
- eight with a wrong word size (`decT`, `roundupPow2`, `shlT`, `hashlinSeg`, `bitGet`, `segGet`, `subT`, `ssize`) and two of `ctz`: they differ only
  for containers or numbers that the samples do not reach;
- five that do not terminate, and two of `chainMergeLoop` that reach the time limit;
- of the model in bytes (`HashFlat.lean`), ten that reach the limit of time or memory, and those of `bhashlin*` and a few others that pass:
  the histories executed there are too short for a resize of a linear hashtable. For these the only evidence is that the proof fails.

The mutants of the text in C (`C/Src*.lean`: `ctext`, `ctext2`, `carray`, `calloc`, `clist`, `chashtbl`, `chashdyn` in `seeded/mutations`) were only compiled, not executed. For them a failed proof can
also be due to a proof that follows the text literally; e.g. the equivalent ones of `carray` (an assert with `<=`, `>` instead of `>=` in
grow) fail too. `tools/mutdirect.py` compiles only the modules with the proofs on the text of the file mutated, and stops at the first that fails.
One of `ctext` survived there: the semantics without the padding of the structs (`alignUp`), compiled against the proofs on the hashtables and
the tree. It is equivalent for these, as their structs have no padding; only the struct of the block arrays has it, on 64 bits.
Compiled again against the proofs on the block arrays, it is killed (`field_blkCnt` in `Proof/CArrBlkFun.lean`).
Not all the mutants of these files were run: the last three of `ctext` and ten of the thirty of `calloc` were not, and none of `chashlin` and
`ctypes`. `seeded/LOG.jsonl` has only the ones that were; apart from the one above, all of them are killed.

`tools/genmut.py` generates mutants of every definition of the models by exchanging operators, constants, fields, arguments and by
removing statements. It was run on the models as they were before the 32 bit build was added: 2275 of the mutants are programs. They were executed
first; 1869 are refuted and 67 do not terminate in the time limit, and these were not built (`seeded/GENERATED.jsonl`). The 339 that pass the
execution were built: the proofs of 308 fail, and 31 survive. All of them are in `seeded/LOG.jsonl` (`generated`), with the reason
for the ones that survive: 30 do not change the behavior (removed assertions that never fail, initializations that are overwritten, ranges of
the counters that cannot be reached), and one changed a definition that nothing used, now removed. `tools/loggen.py` writes these lines.

## 7. Properties added after the first list

C48, C49 (frame and memory usage of the hashtables), and C50, C51, C52 (section 2.1).

C53, C54 (P), comparisons of the sort. `Model/SortCost` is a copy of the functions of the sort with a counter incremented at
each call of the comparison function; `listSortC_erase` (`Proof/SortErase`, fixpoint induction) shows that without the
counter it gives the same result and the same memory. The specification of the counted sort relates each bucket to the
block of input it comes from and to the comparisons spent on it. The bound comes from `(i + 1) 2^i - 1` comparisons for a
bucket of `2^i` elements; the two ordered cases from one, or two, comparisons for each of the `n - 1` merges.

C55, C56 (P), cost of insert and remove of the tree. `Model/TreeCost` is a copy of the functions with a counter of the calls of
the comparison function and of `tommy_tree_balance`; `Proof/TreeErase` shows by fixpoint induction (joint, for the three
mutually recursive functions) that without the counter they give the same results. A balance of two subtrees whose indexes
differ by `d` makes between `d` and `16 d + 1` calls (`bal_okN`). In an insert `d` is at most two, so the cost is
logarithmic. In a remove `tommy_tree_move_right` hangs the whole right subtree at the end of the right spine of the left one
and balances each node of the spine, with a difference that grows going up to the height of the tree: from this both the upper
bound and the lower bound `i (2 m - i) / 4`, with `i` and `m` the indexes of the two children of the removed node (`spine`).

C57, C58 (P), cost of the resizes of the hashtables. `hashdynResize` adds to the ghost field `work` the buckets it visits and the
nodes it moves (a shrink only concatenates the lists, so it moves none); `hashlinGrowLoop` adds to the ghost field `moved` the nodes it
relinks, the result of `flushLoop`. Nothing reads these fields. Both bounds use a potential over `Sys.ReachCost` (`dynPot`, `Num.mpot`
in `Proof/HashCost`). For hashlin the buckets split are already counted in C15, C16, but a bucket can contain any number of
nodes: the potential contains the number `pend` of nodes in buckets not yet split, and the nodes are all pending when a growth
starts or a shrink is in progress. `C58_hashlin_call_linear` follows the path of `Proof/LinPath` with all the hashes equal.

C59 (P), tries and allocators in one memory of bytes. `Model/TrieFlat` is tommytrie.c again, where the fields of the nodes and the
cells of the blocks are 8 (or 4) bytes at an address, and a block is what the model of tommyalloc.c returns; each call records
its calls of the allocator in a log, which nothing reads. The specification (`Spec/TrieFlat`) has one state for
the regions of malloc, the allocators and the tries; the log must be a right history of the allocator (`Trace`), and the
bytes of the tries in use are of the program, which must neither write nor release them. In the proof the typed memory of `Model/Trie`
is kept beside the bytes: `MRel` says that the typed nodes and cells are in the bytes, in places that do not overlap, and
`Rel` adds the allocator. `Proof/TrieFlatSim` shows function by function that the code on the bytes follows the code on the typed
memory when the supply of addresses of the latter is the free list followed by the blocks of the segments that malloc is going
to return; the theorems of C36 - C38 on the typed code then give the ones of C59. The default configuration is proved with no
slack after the memory of malloc (`C59_trie_alloc`, using `C28_trie_partial`). The `count`, `node_count` and `alloc` fields of the trie struct
occupy three words of the struct but, as the struct of the allocator, are values of the model and not bytes.

C60 (P), accesses to the memory of the tries. `Model/TrieCost` is a copy of the functions of the two tries with a counter of the
words read and written; the calls on a list have no loops and add a constant, the accesses of their longest path. The fields `count` and
`node_count` of the struct and the work of the allocator are not counted (an insert calls it at most once for each level, C36). `Cost`
(`Proof/TrieCost`) says at once that a function gives the same result and memory as the one of the model, and that the counter increases at
most by the bound plus a weight for each block got from the allocator; it is proved function by function with the rules for
bind, if and calls. The depth of the structure (`Deep`, `IDeep`) comes from the representation invariants of C36 and C39. The search of the leaf that
replaces a removed node of tommytrieinp visits at most `TREE_MAX + 1` cells for each level. tommy.h:278 says that the tries grow as log8(N)
and log4(N): it is about random keys; `C60_trie_two` has two elements and already the maximal cost.

C61 (P), containers of different kinds in one memory. `Spec/World` takes a family of containers, each one with its specification (`Sys`) seen
as a `Part`: the state is the memory of the nodes, which is common, and the rest, which is private. A call is legal when it is
legal for its container alone and the node to insert is in no other container; the result must be the one allowed by the
specification of its container alone, and the abstract state of the other containers does not change. In the proof the call of a container is for the others a finite sequence of
writes of the program to nodes that are not theirs, which is already in their histories: so the state that each container sees is
always reachable by the container alone (`C61_each`), and the theorems on each kind are used as they are: what is needed is that it is correct
and that a call writes only its own nodes and the one to insert (`PartOk`). The vectors of the hashtables and the structs and the blocks of the tries
are separated by construction (each container has its own); C48, C36 and C59 say that the calls respect those of others. The containers are initialised at the start of the history;
lists, trees and tries can be initialised again.

C62 (P), content of the buckets. The invariant of the buckets (`BInv`) already says that an element is at the position of its hash; `OnlyCollide`
(`Spec/HashBucket`) states what it means for the client: the walk of bucket(h) gives a permutation of the elements with the same hash modulo a power of two,
a search has the same result in any memory that agrees on those nodes (the others may be deallocated: in the model reading them would be an error), and the copies
of search and remove which fail after n nodes (`searchIn`, `…RemoveIn`) give the same results for n from the number of those elements on. In tommy_hashlin the power is
`low_max`, or twice that for the positions already split; it is never less than the number of elements. `Spread` is the hypothesis on the
hash function that makes the searches constant; `C62_spread_dense` shows it for the hashes 0 … n-1, and the examples have a million of elements.

C63 (P), the documented program for objects with more keys. `Model/Index` is the code of tommy.h:550-626, with the calls of the models of tommy_hashdyn and
tommy_list on one memory that has the nodes of all the containers and the vectors of the two tables. The objects of 104 bytes are allocated and freed by the history, at any address where they
do not overlap; `free` on something that is not an allocated object is an error. The search functions give an arbitrary result (`junk`) on
memory which is not an allocated object: as the result of the search does not depend on it, they are never called there. The invariant (`Tabs`, `Proof/IndexTabs`) says that each table is right seen from the memory
without its own vector (`strip`), so that the theorems on one table alone apply to each call; the calls of a table change neither the vector nor the nodes of the other. `C63_done` is the end
of the program: the nodes in the buckets are freed before the tables, which is right because done() does not read them (the mutation that writes one is refuted). The `prev` of the first node is the last node, so the iterator that goes backward from the first continues from
the last, and never becomes 0 going backward.

C64 (P), the documented deallocation. `Model/Free` has `free()` on objects with any number of nodes and the two calls of the examples. C06, C12 and C32 are on any callback that leaves alone
the elements not yet visited; here the callback is `free()`, for which that is proved from the layout of the objects (`Objects`), with the result: the objects are deallocated once each
(in the model a second `free` is an error), and nothing else changes. Then done() runs in a memory where no node of the table exists any more: `hashlinDone_heap` shows that it does not look at the nodes.

C65 (P), order of the tries. `walkTrie` (`Spec/TrieOrder`) reads the cells in order, and fails on a block deeper than the number of levels. The order follows from the invariant of C36 (the high digits
of the keys in a child are those of its parent and the index of the child); `C65_order_unique` says that the property determines the list. In the inplace trie the elements used as inner nodes come before
their children, so only the others are in order, as tommytrieinp.h says ("not stored in order").

C66 (P), tables created and destroyed at any time. `Spec/Tables` has a numbered family of tables of the three kinds in one memory, with init, the calls, done and the documented
deallocation in any order. The invariant (`Proof/Tables`) is: each vector has at most one owner, and each table satisfies its invariant seen from the memory without the vectors that it
owns (`without`), so the theorems on a table alone apply to each of its calls; what a call leaves alone (the vectors and the nodes not its own) is what the others need (`Moves`: an invariant depends only on the own vectors and nodes).
`C66_usage` gives the partition of the vectors explicitly. In C61 the vectors of different containers are separated by construction and the hashtables live for the whole history; here neither is assumed, for the hashtables.

C67 (P), when the dynamic hashtables are resized. `Spec/HashSize` gives the number of buckets after a call as a function of the number before it and of the elements before and after
(`dynSize`, `LinSize.next`); there is nothing else in the state that matters. C16 and C17 bound the sizes, but a mutation that moves a threshold by one still satisfies the bounds: it broke the proofs and no statement. Now
the thresholds are in a statement. `C67_memory` ties the numbers to the memory: they are the cells of the vectors allocated by the table, and what memory_usage() computes.

C68 (N), the documented thresholds. tommyhashdyn.h:31-33 says "greater than 0.5" and "lower than 0.125", the code uses `>=` and `<=` (`C68_doubles_at_half_false`,
`C68_halves_at_eighth_false`: 8 elements in 16 buckets, 4 in 32); away from the two values it is as documented (`C68_hashdyn_partial`). tommyhashlin.h:34 says 16 buckets, they are 64
(`C68_hashlin_start_false`); its two thresholds are as documented (`C68_hashlin_partial`).

C69 (P), values of the integer hashes. C40 proves that the two functions are injective; a wrong shift can leave them injective, so here they are compared with the functions of Jenkins and of
Wang written as arithmetic modulo 2^32 and 2^64 (`Spec/IntHash`: `key -= key << 6` is a product by `2^32 - 63`), and the inverses are given: the products are undone with the
inverse of the constant, and `x ^= x >> n` by iterating `x := y ^ (x >> n)` (`C69_inverse_u32`, `C69_inverse_u64`). The specification is written from the definition of the two hashes and not
copied from the web pages cited by the header, not reachable from here.

C70 (P), chains. The functions of tommychain.h by themselves, on chains as documented at tommychain.h:45-50, where the outer fields are undefined: `ChainOf` says nothing of them, and the
example has wild values there. C03 to C05 are about `tommy_list_sort`, which uses them on a whole list. "Functionally equivalent" (tommychain.h:117) is proved for ordered chains and a comparator that is a total preorder
(`C70_merge_degenerated`); on chains not ordered it is false (`C70_unordered`), because only the ends are compared; `tommy_chain_mergesort` only merges ordered chains.

C71 (P), `remove` and `bucket` with `remove_existing`. tommytrie.h:216 and tommytrieinp.h:195 say that the first is faster than the other two called separately. `separately` is the client that calls
them; the theorems say that the result and the whole memory are the same and that the accesses differ exactly by those of the bucket (one more in place). When no element has the key the accesses
are the same, so "faster" is there only the call. The proof compares the two descents step by step (`rem_loop`, `inp_loop`), and needs that the work does not depend on the value of the counter, which the
relation `Cost` of C60 now says.

C72 (P), variants. The bit scans have three variants and `tommy_le_uint32_read` two. The compiler builtins are modelled with the meaning in their documentation, by counting or finding bits
(`builtinClz`, `bitScanReverse`...). The theorems also say that the result is the one of `ilog2M` and `ctz`, used in the models of tommyarray, tommyhashlin and tommylist, so the choice of the variant changes no
container; and that `leReadX86` is `leRead` for every memory, so it changes no hash, whatever the processor (the x86 variant is never selected on a big endian one, and the other reads bytes).

C73 (N), hash for near keys. tommy.h:329-336 says that keys that differ only by the lowest bits have hashes with the same property. The base `tommy_inthash_u32(v & ~0xF)` has any lowest bits, so the sum can
have a carry (`C73_false`, keys 16 and 31; `C73_partial` is the exact condition). What is wanted, objects stored nearby, is true: the distance of the hashes and of the buckets is that of the keys (`C73_distance`,
`C73_bucket`). Unlike the function it is made from, the macro has collisions (`C73_collision`).

C74 (P), average search. C62 says that a search reads at most the nodes of the elements that collide; C74 counts them exactly (`Reads`: the search limited to `n` nodes gives the result, with less it is not defined)
and takes the averages, with no hypothesis on the hashes. For a search that finds nothing the average is on the hash searched, and each element is read by one hash out of the number of buckets (`miss_mod`). For the searches of the
elements it is on all the assignments of hashes to `n` objects: each assignment may have its own history of calls and so its own state and order (`s H`), of which only the content is known. The nodes read are one for
each element and one for each pair that collides (`Shelves.pairs`), and two objects collide in one assignment out of the buckets (`card_collide`). "Constant" is so proved as a bound that does not depend on the number of elements; the bounds of
tommy_hashdyn are lower because its load factor is always less than 1/2. tommy_hashtable does not resize, and the hypothesis is that the elements are no more than the buckets asked.

C75 (P), hashtables in bytes. In the model of C08 - C11 the nodes, vectors and structs cannot overlap by construction, and a vector freed is never used again. The second model (`Model/HashFlat.lean`) has one memory of bytes: a field is read and written
as 4 or 8 bytes at an address computed with the arithmetic of the pointers, the segments of tommy_hashlin are biased pointers computed modulo 2^64 (2^32), and malloc() returns any address not in use with any content. The abstract state has for each table, by the
address of its struct, the size (the law of C67), the elements and the memory got; plus the regions of the program and the bytes that it knows. It is proved by a simulation (`HashFlatSim`: each read and write of the flat code is the one of the typed model, with a map `φ` from the numbers of the
vectors to the addresses), so the theorems of the typed model give the results; `HashFlatInv` keeps the simulation for all the tables together when memory is freed and used again, and the frame comes from which bytes a simulated step can write. The allocations are in the result of a call (`log`):
`owns` computes from it what the table owns, and fails if the table frees something else. `C75_own` says that it is one vector for tommy_hashtable and tommy_hashdyn and the segments of 64, 64, 128 … buckets for tommy_hashlin. Not required: any alignment. Only in the quantifier: the limit `maxBuckets` for the size of a tommy_hashtable
(beyond it the rounding up or the size of the vector overflows, C18), and the calls legal as in C08 (the node inserted is not in use, the node removed is stored).

C76 (P), the text in C. The models are written by hand, and a mistake of reading would be in all the theorems. For tommylist.h and the three hashtables this is closed: `tools/c2lean.py` translates the text of each function to a tree of statements and expressions (`C/Src*.lean`, one constructor
for each construct), `C/Sem.lean` gives the meaning of the trees, with the types, the conversions of ISO C, the layout of the structs computed from their fields, signed overflow, shifts out of range, values not initialised, accesses out of the live regions and failed assert() as errors; `C/Call.lean` makes the calls of
the functions, also recursive, a least fixed point. For each function `Proof/C*.lean` proves that when the model of C75 succeeds then also the text does, with the same bytes, the same calls of malloc() and free() and the same result (`Impl`), by a symbolic execution (`csimp`) and by fixed point induction for the loops; with the correctness of the model, C75,
the text is correct (`C76_source`), and it is the same function of the memory in every reachable state (`C76_same`), so that the other theorems of C75 pass to it. It found that two steps of the model were not in the text as ISO C defines it: `(tommy_ptrdiff_t)1 << i` is undefined when `i` is the last bit, and `-(tommy_ptrdiff_t)low_max` needs that `low_max` is in the type; both the models of
tommy_hashlin check it now, and the theorems prove that it never happens. Choices of the semantics: evaluation from left to right (the text has no expression where the order matters: at most one call with effects in each); the two usual ABIs, little endian; `&segment[-low_max]` may be computed; no alignment, and no effective types. Preprocessor: GCC, C and not C++, asserts active. Not in C76: tommychain.h and `tommy_list_sort`.

C77 (P), the text of the hash functions. The translator and the semantics of C76 have more of the language: literals with a suffix, `~`, arrays with initialisers, `do`/`while`, `switch` with the fall through of its cases, and the sum of a pointer and an integer. `Proof/CHash.lean` relates the text to `Model/Hash.lean` with `Rd`: when the model
has a result, the text has the same and the memory is not changed. The lemmas are for any meaning of the function called for the read of 4 bytes (`Src`), so they are used twice, for the text with four bytes and for the one of x86 (`f_tommy_le_uint32_read_x86`, which the translator gets with `__x86_64__` defined; `runX86`). With C40, C41, C43 and C45 - C47 the results
are those of the specifications. The key is in a live region exactly as long as the key in the example, so nothing else can be read. `tommy_strhash_u32` has the hypothesis of C43 that the rest of the group of 4 bytes can be read, which is in the statement of the property (without it, C44, it is false).

C78 (P), the text of tommytree. The functions insert and remove take the address of a local variable (`&let`): the translator gives the statement `.scope` to the block of such a variable, and `C/Sem.lean` makes it an object of the memory (`bstack`), at any address where nothing is live and with any content, that ends with the block (`bunstack`). Its read before
a write is not detected as undefined (both the functions initialise it). `Proof/CTree*.lean` relate the text to `Model/Tree.lean` by the simulation of C75 (`Sim`), where the nodes are typed and all the rest of the memory are bytes that the call must preserve; the mutual recursion of the rotations and of the balance is by fixed point induction on the model. `tommy_ssize_t` and the
`int` of the comparison functions are two's complement numbers with the arithmetic of `C/Sem.lean` (`sbits`, `ibits`). The specification (`Spec/CTree.lean`) has no typed memory: the state is the bytes and the live regions, the abstract state the sets by address of the struct, and `foreign` is any change of the memory that leaves alone the bytes in use. For a call only the tree of the call is typed
(`Proof/CTreeInv.lean`), so the frame of a call, bytes by bytes, gives the invariant of the other trees. With C31 (`TreeSpec.step_inv`) the results are those of the sets.

C79 (P), the text of the arrays. C19 - C26 are on models of the arrays; here there is no model: the text of the eight files (`C/SrcArray.lean`) is executed in bytes, and its functions are proved right with the invariant `Rep` (`Proof/CArrRep.lean`): the fields of the struct, the entry `bit` of the vector of segments, which is the address of the segment
minus the first position times the size of an element modulo 2^64 (2^32), and for the arrays of blocks the pointer of each block. The sizes that malloc() is asked are a function of the specification (`Vec.asks`: the room is doubled from 64 until it is enough; one block each 4096 elements). In the specification an array is only where its elements are (`addr`) and what it allocated (`own`): `next` takes the addresses of the new elements
from `ref`, and `allowed` says that they are in the memory allocated, apart from each other, and never different from before (`places`, `stable`). The elements are memory of the program: `foreign` changes them as it likes, and an init can put another struct in them. So the bytes of the library are the struct and what is allocated but not in an element (`Vec.internal`), and `set` and `done` are legal only if they do not destroy the struct
of another array; this is the only interference possible, and it is by the program. Elements of 0 bytes are excluded (`legal`; calloc(0) is implementation defined). The overflow of C23 (`count + 4095`) is excluded by the memory: for such a number of elements the memory cannot be given.

C80 (P), the text of the allocator. The functions of `C/SrcAlloc.lean` are executed in bytes, and `Proof/CAllocRun.lean` relates them to `Model/Alloc.lean` by `Sim`: the model has the struct as a value and the memory of the segments as bytes, the text has all in the memory, so the memories are equal out of the struct. The only `do` loop of the library is the one of alloc, for which
`C/Sem.lean` has `.doWhile` (`exec_doWhile`). In `Proof/CAllocInv.lean` the invariant of a pool of C28 - C30 (`PoolInv`, with no slack) gives `Rep`, that the allocator is in the bytes. As for the arrays, the blocks in use are memory of the program, where it can put another allocator: the bytes of the library are the struct and what is in the segments but not in a block in use (`internal`), and
they are different for different allocators. `C80_blocks` says the same of the blocks in use of all the allocators. `Room` is the condition, on the block size, the alignment and the address returned by malloc(), for which the last block is inside the segment: the defect of C28 (`C28_false`) is that the code does not subtract the header of the segment from the size, and no condition
on the program can exclude it for all the sizes; so here it is a hypothesis, and in the statement of the property; `C80_out` (`Proof/CAllocOut.lean`) is the defect in the text: with blocks of the size of a pointer, aligned at it, the execution of the first alloc has no result. The example has an allocator in a block of another one.

C81 (P), the text of the lists. The functions of `C/SrcList.lean` (all of tommylist.h; the sort is in tommylist.c and is not here) are executed in bytes. The specification has only the sequences of the addresses of the nodes; there is no model of the links. In `Proof/CListRun.lean` each function becomes a sequence of reads and writes of words (for some of them these are the definitions `blist*` of `Model/HashFlat.lean`,
which C76 already proves equal to the text), and the loops of count and foreach are done by induction. In `Proof/CListInv.lean` `Nx` and `Pv` are the fields `next` and `prev` of a sequence, with what is in the last and in the first one, so that they split at any node (`nx_append`, `pv_append`); each function is a few writes, and what is read after them is decided by the
distances of the addresses. `links` are the bytes that only the library can write, `internal` has also the field `data`, that the program can write but in which it cannot put another list. The field `index` of the node is never touched. `C81_walk` says the shape of the memory as any code would read it, without `Nx` and `Pv`. That count does not overflow is not a hypothesis: the nodes have different addresses, none 0
(`Rep.len`). C03, C04 and C05 (the sort) are on the model `Model/List.lean`. In `C81_foreach` (and `C78_foreach`) the function of the client must leave alone the nodes not yet visited only in the memories that the calls before it really leave. A first version asked it in every memory with these nodes, and `free()` is not such a function, as in a
memory with overlapping regions it could free another node; `C81_free` and `C78_free`, the documented `foreach(&list, free)`, were not provable from it. Now they are consequences, with each object in a region of its own.
