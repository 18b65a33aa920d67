# Axioms of the theorems in MANIFEST.json

Generated by `tools/axioms.py` with `#print axioms`.

| property | theorem | axioms |
|---|---|---|
| C01 | `Tommy.C01_list_sequence` | propext, Classical.choice, Quot.sound |
| C01 | `Tommy.C01_list_history` | propext, Classical.choice, Quot.sound |
| C02 | `Tommy.C02_list_links` | propext, Classical.choice, Quot.sound |
| C03 | `Tommy.C03_list_sort_sorted` | propext, Classical.choice, Quot.sound |
| C04 | `Tommy.C04_list_sort_stable` | propext, Classical.choice, Quot.sound |
| C05 | `Tommy.C05_list_sort_any_cmp` | propext, Classical.choice, Quot.sound |
| C06 | `Tommy.C06_list_foreach` | propext, Classical.choice, Quot.sound |
| C06 | `Tommy.C06_list_foreach_arg` | propext, Classical.choice, Quot.sound |
| C07 | `Tommy.C07_list_frame` | propext, Classical.choice, Quot.sound |
| C08 | `Tommy.C08_hashtable_partial` | propext, Classical.choice, Quot.sound |
| C08 | `Tommy.C08_hashtable_false` | propext, Classical.choice, Quot.sound |
| C09 | `Tommy.C09_hashdyn` | propext, Classical.choice, Quot.sound |
| C10 | `Tommy.C10_hashlin` | propext, Classical.choice, Quot.sound |
| C11 | `Tommy.C11_bucket_hashtable_partial` | propext, Classical.choice, Quot.sound |
| C11 | `Tommy.C11_bucket_hashdyn` | propext, Classical.choice, Quot.sound |
| C11 | `Tommy.C11_bucket_hashlin` | propext, Classical.choice, Quot.sound |
| C11 | `Tommy.C11_bucket_hashtable_false` | propext, Classical.choice, Quot.sound |
| C12 | `Tommy.C12_foreach_hashtable_partial` | propext, Classical.choice, Quot.sound |
| C12 | `Tommy.C12_foreach_hashdyn` | propext, Classical.choice, Quot.sound |
| C12 | `Tommy.C12_foreach_hashlin` | propext, Classical.choice, Quot.sound |
| C12 | `Tommy.C12_foreach_arg_hashtable_partial` | propext, Classical.choice, Quot.sound |
| C12 | `Tommy.C12_foreach_arg_hashdyn` | propext, Classical.choice, Quot.sound |
| C12 | `Tommy.C12_foreach_arg_hashlin` | propext, Classical.choice, Quot.sound |
| C12 | `Tommy.C12_foreach_hashtable_false` | propext, Classical.choice, Quot.sound |
| C13 | `Tommy.C13_hashdyn_load` | propext, Classical.choice, Quot.sound |
| C14 | `Tommy.C14_hashlin_load_partial` | propext, Classical.choice, Quot.sound |
| C14 | `Tommy.C14_hashlin_load_false` | propext, Classical.choice, Quot.sound |
| C15 | `Tommy.C15_hashlin_constant_work_false` | propext, Classical.choice, Quot.sound |
| C15 | `Tommy.C15_hashlin_no_constant` | propext, Classical.choice, Quot.sound |
| C15 | `Tommy.C15_hashlin_work_partial` | propext, Classical.choice, Quot.sound |
| C16 | `Tommy.C16_hashlin_amortized` | propext, Classical.choice, Quot.sound |
| C17 | `Tommy.C17_done_hashtable` | propext, Classical.choice, Quot.sound |
| C17 | `Tommy.C17_done_hashdyn` | propext, Classical.choice, Quot.sound |
| C17 | `Tommy.C17_done_hashlin` | propext, Classical.choice, Quot.sound |
| C18 | `Tommy.C18_init_buckets_partial` | propext, Classical.choice, Quot.sound |
| C18 | `Tommy.C18_init_buckets_false` | propext, Classical.choice, Quot.sound |
| C45 | `Tommy.C45_ilog2_u32` | propext, Classical.choice, Quot.sound |
| C45 | `Tommy.C45_ilog2_u64` | propext, Classical.choice, Quot.sound |
| C45 | `Tommy.C45_ctz_u32` | propext, Classical.choice, Quot.sound |
| C45 | `Tommy.C45_ctz_u64` | propext, Classical.choice, Quot.sound |
| C45 | `Tommy.C45_gcc_u32` | propext, Classical.choice, Quot.sound |
| C45 | `Tommy.C45_gcc_u64` | propext, Classical.choice, Quot.sound |
| C46 | `Tommy.C46_roundup_u32` | propext, Classical.choice, Quot.sound |
| C46 | `Tommy.C46_roundup_u64` | propext, Classical.choice, Quot.sound |
| C46 | `Tommy.C46_roundup` | propext, Classical.choice, Quot.sound |
| C46 | `Tommy.C46_roundup_wraps` | propext, Classical.choice, Quot.sound |
| C46 | `Tommy.C46_roundup_wraps_u32` | propext, Classical.choice, Quot.sound |
| C47 | `Tommy.C47_haszero` | propext, Classical.choice, Quot.sound |
| C48 | `Tommy.C48_frame_hashtable` | propext, Classical.choice, Quot.sound |
| C48 | `Tommy.C48_frame_hashdyn` | propext, Classical.choice, Quot.sound |
| C48 | `Tommy.C48_frame_hashlin` | propext, Classical.choice, Quot.sound |
| C49 | `Tommy.C49_usage_hashtable` | propext, Classical.choice, Quot.sound |
| C49 | `Tommy.C49_usage_hashdyn` | propext, Classical.choice, Quot.sound |
| C49 | `Tommy.C49_usage_hashlin` | propext, Classical.choice, Quot.sound |
| C49 | `Tommy.C49_usage_hashtable_all_partial` | propext, Classical.choice, Quot.sound |
| C49 | `Tommy.C49_usage_hashdyn_partial` | propext, Classical.choice, Quot.sound |
| C49 | `Tommy.C49_usage_hashlin_partial` | propext, Classical.choice, Quot.sound |
| C40 | `Tommy.C40_inthash_u32` | propext, Classical.choice, Quot.sound |
| C40 | `Tommy.C40_inthash_u64` | propext, Classical.choice, Quot.sound |
| C41 | `Tommy.C41_hash_u32` | propext, Classical.choice, Quot.sound |
| C41 | `Tommy.C41_hash_u64` | propext, Classical.choice, Quot.sound |
| C41 | `Tommy.C41_only_key` | propext, Classical.choice, Quot.sound |
| C42 | `Tommy.C42_low_bits` | propext, Classical.choice, Quot.sound |
| C43 | `Tommy.C43_strhash` | propext, Classical.choice, Quot.sound |
| C43 | `Tommy.C43_only_string` | propext, Classical.choice, Quot.sound |
| C44 | `Tommy.C44_overread` | propext, Classical.choice, Quot.sound |
| C44 | `Tommy.C44_false` | propext, Classical.choice, Quot.sound |
| C44 | `Tommy.C44_partial` | propext, Classical.choice, Quot.sound |
| C19 | `Tommy.C19_array_partial` | propext, Classical.choice, Quot.sound |
| C19 | `Tommy.C19_array_false` | propext, Classical.choice, Quot.sound |
| C20 | `Tommy.C20_array_all_partial` | propext, Classical.choice, Quot.sound |
| C20 | `Tommy.C20_arrayof_all_partial` | propext, Classical.choice, Quot.sound |
| C20 | `Tommy.C20_array_partial` | propext, Classical.choice, Quot.sound |
| C20 | `Tommy.C20_arrayof_partial` | propext, Classical.choice, Quot.sound |
| C20 | `Tommy.C20_arrayblk_partial` | propext, Classical.choice, Quot.sound |
| C20 | `Tommy.C20_arrayblkof_partial` | propext, Classical.choice, Quot.sound |
| C20 | `Tommy.C20_C21_arrayblk_false` | propext, Classical.choice, Quot.sound |
| C20 | `Tommy.C20_C21_arrayblkof_false` | propext, Classical.choice, Quot.sound |
| C21 | `Tommy.C21_array_all_partial` | propext, Classical.choice, Quot.sound |
| C21 | `Tommy.C21_arrayof_all_partial` | propext, Classical.choice, Quot.sound |
| C21 | `Tommy.C21_array_partial` | propext, Classical.choice, Quot.sound |
| C21 | `Tommy.C21_arrayof_partial` | propext, Classical.choice, Quot.sound |
| C21 | `Tommy.C21_arrayblk_partial` | propext, Classical.choice, Quot.sound |
| C21 | `Tommy.C21_arrayblkof_partial` | propext, Classical.choice, Quot.sound |
| C21 | `Tommy.C20_C21_arrayblk_false` | propext, Classical.choice, Quot.sound |
| C21 | `Tommy.C20_C21_arrayblkof_false` | propext, Classical.choice, Quot.sound |
| C22 | `Tommy.C22_arrayof_partial` | propext, Classical.choice, Quot.sound |
| C22 | `Tommy.C22_arrayof_false` | propext, Classical.choice, Quot.sound |
| C23 | `Tommy.C23_arrayblk_partial` | propext, Classical.choice, Quot.sound |
| C23 | `Tommy.C23_arrayblk_false` | propext, Classical.choice, Quot.sound |
| C24 | `Tommy.C24_arrayblkof_partial` | propext, Classical.choice, Quot.sound |
| C24 | `Tommy.C24_arrayblkof_false` | propext, Classical.choice, Quot.sound |
| C25 | `Tommy.C25_array` | propext, Classical.choice, Quot.sound |
| C25 | `Tommy.C25_arrayof` | propext, Classical.choice, Quot.sound |
| C25 | `Tommy.C25_arrayblk` | propext, Classical.choice, Quot.sound |
| C25 | `Tommy.C25_arrayblkof` | propext, Classical.choice, Quot.sound |
| C26 | `Tommy.C26_array` | propext, Classical.choice, Quot.sound |
| C26 | `Tommy.C26_arrayof` | propext, Classical.choice, Quot.sound |
| C26 | `Tommy.C26_arrayblk` | propext, Classical.choice, Quot.sound |
| C26 | `Tommy.C26_arrayblkof` | propext, Classical.choice, Quot.sound |
| C26 | `Tommy.C26_array_partial` | propext, Classical.choice, Quot.sound |
| C26 | `Tommy.C26_arrayof_partial` | propext, Classical.choice, Quot.sound |
| C26 | `Tommy.C26_arrayblk_partial` | propext, Classical.choice, Quot.sound |
| C26 | `Tommy.C26_arrayblkof_partial` | propext, Classical.choice, Quot.sound |
| C27 | `Tommy.C27_partial` | propext, Classical.choice, Quot.sound |
| C27 | `Tommy.C27_false` | propext, Classical.choice, Quot.sound |
| C28 | `Tommy.C28_false` | propext, Classical.choice, Quot.sound |
| C28 | `Tommy.C28_outside` | propext, Classical.choice, Quot.sound |
| C28 | `Tommy.C28_first` | propext, Classical.choice, Quot.sound |
| C28 | `Tommy.C28_partial` | propext, Classical.choice, Quot.sound |
| C28 | `Tommy.C28_slack` | propext, Classical.choice, Quot.sound |
| C28 | `Tommy.C28_room` | propext, Classical.choice, Quot.sound |
| C28 | `Tommy.C28_trie_partial` | propext, Classical.choice, Quot.sound |
| C29 | `Tommy.C29_usage` | propext, Classical.choice, Quot.sound |
| C29 | `Tommy.C29_usage_partial` | propext, Classical.choice, Quot.sound |
| C29 | `Tommy.C29_reuse_partial` | propext, Classical.choice, Quot.sound |
| C29 | `Tommy.C29_reuse_false` | propext, Classical.choice, Quot.sound |
| C30 | `Tommy.C30_partial` | propext, Classical.choice, Quot.sound |
| C30 | `Tommy.C30_live_partial` | propext, Classical.choice, Quot.sound |
| C30 | `Tommy.C30_false` | propext, Classical.choice, Quot.sound |
| C31 | `Tommy.C31_tree_set` | propext, Classical.choice, Quot.sound |
| C31 | `Tommy.C31_tree_history` | propext, Classical.choice, Quot.sound |
| C31 | `Tommy.C31_no_equal` | propext, Classical.choice, Quot.sound |
| C31 | `Tommy.C31_tree_frame` | propext, Classical.choice, Quot.sound |
| C32 | `Tommy.C32_tree_foreach` | propext, Classical.choice, Quot.sound |
| C32 | `Tommy.C32_tree_foreach_arg` | propext, Classical.choice, Quot.sound |
| C33 | `Tommy.C33_false` | propext, Classical.choice, Quot.sound |
| C33 | `Tommy.C33_tree_balanced_partial` | propext, Classical.choice, Quot.sound |
| C34 | `Tommy.C34_tree_fib` | propext, Classical.choice, Quot.sound |
| C34 | `Tommy.C34_tree_height` | propext, Classical.choice, Quot.sound |
| C34 | `Tommy.C34_tree_search_cost` | propext, Classical.choice, Quot.sound |
| C35 | `Tommy.C35_tree_search_compare` | propext, Classical.choice, Quot.sound |
| C36 | `Tommy.C36_trie_multimap` | propext, Classical.choice, Quot.sound |
| C36 | `Tommy.C36_trie_default` | propext, Classical.choice, Quot.sound |
| C36 | `Tommy.C36_trie_history` | propext, Classical.choice, Quot.sound |
| C36 | `Tommy.C36_trie_frame` | propext, Classical.choice, Quot.sound |
| C36 | `Tommy.C36_trie_key_limit` | propext, Classical.choice, Quot.sound |
| C37 | `Tommy.C37_trie_bucket` | propext, Classical.choice, Quot.sound |
| C37 | `Tommy.C37_trieinp_bucket` | propext, Classical.choice, Quot.sound |
| C38 | `Tommy.C38_trie_blocks` | propext, Classical.choice, Quot.sound |
| C38 | `Tommy.C38_trie_no_block` | propext, Classical.choice, Quot.sound |
| C38 | `Tommy.C38_trie_empty` | propext, Classical.choice, Quot.sound |
| C38 | `Tommy.C38_trie_memory_usage` | propext, Classical.choice, Quot.sound |
| C39 | `Tommy.C39_trieinp_multimap` | propext, Classical.choice, Quot.sound |
| C39 | `Tommy.C39_trieinp_default` | propext, Classical.choice, Quot.sound |
| C39 | `Tommy.C39_trieinp_history` | propext, Classical.choice, Quot.sound |
| C39 | `Tommy.C39_trieinp_frame` | propext, Classical.choice, Quot.sound |
| C39 | `Tommy.C39_trieinp_removed_free` | propext, Classical.choice, Quot.sound |
| C39 | `Tommy.C39_trieinp_key_limit` | propext, Classical.choice, Quot.sound |
| C39 | `Tommy.C39_trieinp_memory_usage` | propext, Classical.choice, Quot.sound |
| C50 | `Tommy.C08_hashtable` | propext, Classical.choice, Quot.sound |
| C51 | `Tommy.C14_hashlin_load` | propext, Classical.choice, Quot.sound |
| C51 | `Tommy.C14_hashlin_load_tight` | propext, Classical.choice, Quot.sound |
| C52 | `Tommy.C27` | propext, Classical.choice, Quot.sound |
| C52 | `Tommy.C27_disjoint` | propext, Classical.choice, Quot.sound |
| C52 | `Tommy.C27_bytes` | propext, Classical.choice, Quot.sound |
| C52 | `Tommy.C27_sizes` | propext, Quot.sound |
| C53 | `Tommy.C53_sort_cost` | propext, Classical.choice, Quot.sound |
| C54 | `Tommy.C54_sort_ordered` | propext, Classical.choice, Quot.sound |
| C54 | `Tommy.C54_sort_decreasing` | propext, Classical.choice, Quot.sound |
| C55 | `Tommy.C55_tree_insert_cost` | propext, Classical.choice, Quot.sound |
| C56 | `Tommy.C56_tree_remove_cost` | propext, Classical.choice, Quot.sound |
| C56 | `Tommy.C56_tree_remove_lower` | propext, Classical.choice, Quot.sound |
| C57 | `Tommy.C57_hashdyn_amortized` | propext, Classical.choice, Quot.sound |
| C57 | `Tommy.C57_hashdyn_call` | propext, Classical.choice, Quot.sound |
| C57 | `Tommy.C57_hashdyn_call_linear` | propext, Classical.choice, Quot.sound |
| C58 | `Tommy.C58_hashlin_moved` | propext, Classical.choice, Quot.sound |
| C58 | `Tommy.C58_hashlin_call_linear` | propext, Classical.choice, Quot.sound |
| C59 | `Tommy.C59_trie_alloc` | propext, Classical.choice, Quot.sound |
| C59 | `Tommy.C59_history` | propext, Classical.choice, Quot.sound |
| C59 | `Tommy.C59_general` | propext, Classical.choice, Quot.sound |
| C59 | `Tommy.C59_slack` | propext, Classical.choice, Quot.sound |
| C59 | `Tommy.C59_frame` | propext, Classical.choice, Quot.sound |
| C59 | `Tommy.C59_blocks` | propext, Classical.choice, Quot.sound |
| C59 | `Tommy.C59_empty` | propext, Classical.choice, Quot.sound |
| C59 | `Tommy.C59_live` | propext, Classical.choice, Quot.sound |
| C59 | `Tommy.C59_done` | propext, Classical.choice, Quot.sound |
| C60 | `Tommy.C60_trie_cost` | propext, Classical.choice, Quot.sound |
| C60 | `Tommy.C60_trieinp_cost` | propext, Classical.choice, Quot.sound |
| C60 | `Tommy.C60_trie_default_bounds` | propext |
| C60 | `Tommy.C60_trie_default_bounds32` | propext |
| C60 | `Tommy.C60_trie_search_exact` | propext, Classical.choice, Quot.sound |
| C60 | `Tommy.C60_trie_two` | propext, Classical.choice, Quot.sound |
| C61 | `Tommy.C61_together` | propext, Classical.choice, Quot.sound |
| C61 | `Tommy.C61_history` | propext, Classical.choice, Quot.sound |
| C61 | `Tommy.C61_each` | propext, Classical.choice, Quot.sound |
| C61 | `Tommy.C61_disjoint` | propext, Classical.choice, Quot.sound |
| C61 | `Tommy.C61_frame` | propext, Classical.choice, Quot.sound |
| C61 | `Tommy.C61_start` | propext, Classical.choice, Quot.sound |
| C62 | `Tommy.C62_collide_hashtable` | propext, Classical.choice, Quot.sound |
| C62 | `Tommy.C62_collide_hashdyn` | propext, Classical.choice, Quot.sound |
| C62 | `Tommy.C62_collide_hashlin` | propext, Classical.choice, Quot.sound |
| C62 | `Tommy.C62_spread_hashtable` | propext, Classical.choice, Quot.sound |
| C62 | `Tommy.C62_spread_hashdyn` | propext, Classical.choice, Quot.sound |
| C62 | `Tommy.C62_spread_hashlin` | propext, Classical.choice, Quot.sound |
| C62 | `Tommy.C62_spread_dense` | propext, Quot.sound |
| C63 | `Tommy.C63_index` | propext, Classical.choice, Quot.sound |
| C63 | `Tommy.C63_state` | propext, Classical.choice, Quot.sound |
| C63 | `Tommy.C63_done` | propext, Classical.choice, Quot.sound |
| C63 | `Tommy.C63_no_leak` | propext, Classical.choice, Quot.sound |
| C64 | `Tommy.C64_hashtable` | propext, Classical.choice, Quot.sound |
| C64 | `Tommy.C64_hashdyn` | propext, Classical.choice, Quot.sound |
| C64 | `Tommy.C64_hashlin` | propext, Classical.choice, Quot.sound |
| C64 | `Tommy.C64_list` | propext, Classical.choice, Quot.sound |
| C64 | `Tommy.C64_tree` | propext, Classical.choice, Quot.sound |
| C65 | `Tommy.C65_trie_order` | propext, Classical.choice, Quot.sound |
| C65 | `Tommy.C65_order_unique` | propext, Quot.sound |
| C65 | `Tommy.C65_trieinp_order` | propext, Classical.choice, Quot.sound |
| C66 | `Tommy.C66_tables` | propext, Classical.choice, Quot.sound |
| C66 | `Tommy.C66_foreach` | propext, Classical.choice, Quot.sound |
| C66 | `Tommy.C66_frame` | propext, Classical.choice, Quot.sound |
| C66 | `Tommy.C66_frame_init` | propext, Classical.choice, Quot.sound |
| C66 | `Tommy.C66_frame_destroy` | propext, Classical.choice, Quot.sound |
| C66 | `Tommy.C66_usage` | propext, Classical.choice, Quot.sound |
| C66 | `Tommy.C66_release` | propext, Classical.choice, Quot.sound |
| C67 | `Tommy.C67_hashdyn_start` | propext, Classical.choice, Quot.sound |
| C67 | `Tommy.C67_hashdyn_size` | propext, Classical.choice, Quot.sound |
| C67 | `Tommy.C67_hashlin_start` | propext, Classical.choice, Quot.sound |
| C67 | `Tommy.C67_hashlin_size` | propext, Classical.choice, Quot.sound |
| C67 | `Tommy.C67_memory` | propext, Classical.choice, Quot.sound |
| C68 | `Tommy.C68_doubles_at_half_false` | propext, Classical.choice, Quot.sound |
| C68 | `Tommy.C68_halves_at_eighth_false` | propext, Classical.choice, Quot.sound |
| C68 | `Tommy.C68_hashlin_start_false` | propext, Classical.choice, Quot.sound |
| C68 | `Tommy.C68_hashdyn_partial` | propext, Classical.choice, Quot.sound |
| C68 | `Tommy.C68_hashlin_partial` | propext, Classical.choice, Quot.sound |
| C69 | `Tommy.C69_values` | propext, Classical.choice, Quot.sound |
| C69 | `Tommy.C69_inverse_u32` | propext, Classical.choice, Quot.sound |
| C69 | `Tommy.C69_inverse_u64` | propext, Classical.choice, Quot.sound |
| C70 | `Tommy.C70_concat` | propext, Classical.choice, Quot.sound |
| C70 | `Tommy.C70_splice` | propext, Classical.choice, Quot.sound |
| C70 | `Tommy.C70_merge` | propext, Classical.choice, Quot.sound |
| C70 | `Tommy.C70_merge_degenerated` | propext, Classical.choice, Quot.sound |
| C70 | `Tommy.C70_unordered` | propext, Classical.choice, Quot.sound |
| C70 | `Tommy.C70_mergesort` | propext, Classical.choice, Quot.sound |
| C71 | `Tommy.C71_trie` | propext, Classical.choice, Quot.sound |
| C71 | `Tommy.C71_trieinp` | propext, Classical.choice, Quot.sound |
| C72 | `Tommy.C72_ilog2` | propext, Classical.choice, Quot.sound |
| C72 | `Tommy.C72_ctz` | propext, Classical.choice, Quot.sound |
| C72 | `Tommy.C72_read` | propext, Quot.sound |
| C73 | `Tommy.C73_false` | propext, Quot.sound |
| C73 | `Tommy.C73_partial` | propext, Classical.choice, Quot.sound |
| C73 | `Tommy.C73_distance` | propext, Classical.choice, Quot.sound |
| C73 | `Tommy.C73_bucket` | propext, Classical.choice, Quot.sound |
| C73 | `Tommy.C73_collision` | propext, Quot.sound |
| C74 | `Tommy.C74_miss_hashtable` | propext, Classical.choice, Quot.sound |
| C74 | `Tommy.C74_miss_hashdyn` | propext, Classical.choice, Quot.sound |
| C74 | `Tommy.C74_miss_hashlin` | propext, Classical.choice, Quot.sound |
| C74 | `Tommy.C74_hit_hashtable` | propext, Classical.choice, Quot.sound |
| C74 | `Tommy.C74_hit_hashdyn` | propext, Classical.choice, Quot.sound |
| C74 | `Tommy.C74_hit_hashlin` | propext, Classical.choice, Quot.sound |
| C75 | `Tommy.C75_flat` | propext, Classical.choice, Quot.sound |
| C75 | `Tommy.C75_history` | propext, Classical.choice, Quot.sound |
| C75 | `Tommy.C75_regions` | propext, Classical.choice, Quot.sound |
| C75 | `Tommy.C75_own` | propext, Classical.choice, Quot.sound |
| C75 | `Tommy.C75_apart` | propext, Classical.choice, Quot.sound |
| C75 | `Tommy.C75_disjoint` | propext, Classical.choice, Quot.sound |
| C75 | `Tommy.C75_release` | propext, Classical.choice, Quot.sound |
| C75 | `Tommy.C75_frame` | propext, Classical.choice, Quot.sound |
| C75 | `Tommy.C75_other` | propext, Classical.choice, Quot.sound |
| C75 | `Tommy.C75_frame_init` | propext, Classical.choice, Quot.sound |
| C76 | `Tommy.C76_source` | propext, Classical.choice, Quot.sound |
| C76 | `Tommy.C76_history` | propext, Classical.choice, Quot.sound |
| C76 | `Tommy.C76_reach` | propext, Classical.choice, Quot.sound |
| C76 | `Tommy.C76_same` | propext, Classical.choice, Quot.sound |
| C76 | `Tommy.C76_frame` | propext, Classical.choice, Quot.sound |
| C76 | `Tommy.C76_release` | propext, Classical.choice, Quot.sound |
| C76 | `Tommy.C76_foreach` | propext, Classical.choice, Quot.sound |
| C76 | `Tommy.C76_foreach_arg` | propext, Classical.choice, Quot.sound |
| C77 | `Tommy.C77_hash_u32` | propext, Classical.choice, Quot.sound |
| C77 | `Tommy.C77_hash_u64` | propext, Classical.choice, Quot.sound |
| C77 | `Tommy.C77_strhash` | propext, Classical.choice, Quot.sound |
| C77 | `Tommy.C77_inthash` | propext, Classical.choice, Quot.sound |
| C77 | `Tommy.C77_ilog2` | propext, Classical.choice, Quot.sound |
| C77 | `Tommy.C77_ctz` | propext, Classical.choice, Quot.sound |
| C77 | `Tommy.C77_roundup` | propext, Classical.choice, Quot.sound |
| C77 | `Tommy.C77_haszero` | propext, Classical.choice, Quot.sound |
| C78 | `Tommy.C78_source` | propext, Classical.choice, Quot.sound |
| C78 | `Tommy.C78_history` | propext, Classical.choice, Quot.sound |
| C78 | `Tommy.C78_apart` | propext, Classical.choice, Quot.sound |
| C78 | `Tommy.C78_unique` | propext, Classical.choice, Quot.sound |
| C78 | `Tommy.C78_foreach` | propext, Classical.choice, Quot.sound |
| C78 | `Tommy.C78_free` | propext, Classical.choice, Quot.sound |
| C79 | `Tommy.C79_source` | propext, Classical.choice, Quot.sound |
| C79 | `Tommy.C79_history` | propext, Classical.choice, Quot.sound |
| C79 | `Tommy.C79_apart` | propext, Classical.choice, Quot.sound |
| C79 | `Tommy.C79_elements` | propext, Classical.choice, Quot.sound |
| C79 | `Tommy.C79_set_get` | propext, Classical.choice, Quot.sound |
| C80 | `Tommy.C80_source` | propext, Classical.choice, Quot.sound |
| C80 | `Tommy.C80_history` | propext, Classical.choice, Quot.sound |
| C80 | `Tommy.C80_apart` | propext, Classical.choice, Quot.sound |
| C80 | `Tommy.C80_blocks` | propext, Classical.choice, Quot.sound |
| C80 | `Tommy.C80_out` | propext, Classical.choice, Quot.sound |
| C81 | `Tommy.C81_source` | propext, Classical.choice, Quot.sound |
| C81 | `Tommy.C81_history` | propext, Classical.choice, Quot.sound |
| C81 | `Tommy.C81_walk` | propext, Classical.choice, Quot.sound |
| C81 | `Tommy.C81_apart` | propext, Classical.choice, Quot.sound |
| C81 | `Tommy.C81_foreach` | propext, Classical.choice, Quot.sound |
| C81 | `Tommy.C81_free` | propext, Classical.choice, Quot.sound |
