# Axioms behind the theorems named in MANIFEST.json

Output of `#print axioms`, grouped.

## none

* `Verif.CycleMap.C87_len`
* `Verif.OptionalPair.C01_pair_roundtrip`

## propext

* `Verif.C128_single`
* `Verif.CycleMap.C104_start`
* `Verif.CycleMap.C106_retain_partial`
* `Verif.CycleMap.C118_actual`
* `Verif.CycleMap.C139_wrong_partner`
* `Verif.CycleMap.C149_extend`
* `Verif.CycleMap.C89_partial`
* `Verif.GroupMap.C109_retain_partial`
* `Verif.GroupMap.C128_iterUnpaired`
* `Verif.GroupMap.C149_extend`
* `Verif.GroupMap.C149_extendOpt`
* `Verif.GroupMap.C73_size_hint_actual`
* `Verif.GroupMap.C77_extend_is_inserts`
* `Verif.OptionalPair.C02_option_roundtrip`
* `Verif.OptionalPair.C03_accessors`
* `Verif.OptionalPair.C03_eq`
* `Verif.OptionalPair.C04_mapping`
* `Verif.PartialMap.C104_actual`
* `Verif.PartialMap.C128_drain`
* `Verif.PartialMap.C128_iter`
* `Verif.PartialMap.C128_iterUnpaired`
* `Verif.PartialMap.C149_extend`
* `Verif.PartialMap.C149_extendPairs`
* `Verif.PartialMap.C155_agrees`
* `Verif.PartialMap.C52_actual`
* `Verif.Swiss.C125_stable`

## propext, Classical.choice, Quot.sound

* `Verif.C136_contract`
* `Verif.C140_actual_cycle`
* `Verif.C140_actual_partial`
* `Verif.C140_false`
* `Verif.CycleMap.C05_history`
* `Verif.CycleMap.C05_history_from`
* `Verif.CycleMap.C05_history_with_capacity`
* `Verif.CycleMap.C05_reachable_shows`
* `Verif.CycleMap.C06_lookups_inverse`
* `Verif.CycleMap.C07_insert_effect`
* `Verif.CycleMap.C08_insert_returns`
* `Verif.CycleMap.C09_remove_via`
* `Verif.CycleMap.C100_debug`
* `Verif.CycleMap.C105_effect`
* `Verif.CycleMap.C106_false`
* `Verif.CycleMap.C106_partial`
* `Verif.CycleMap.C107_own_panic`
* `Verif.CycleMap.C10_remove`
* `Verif.CycleMap.C113_forget`
* `Verif.CycleMap.C115_actual`
* `Verif.CycleMap.C115_false`
* `Verif.CycleMap.C115_partial`
* `Verif.CycleMap.C116_entry_eq`
* `Verif.CycleMap.C116_entry_item`
* `Verif.CycleMap.C117_memory`
* `Verif.CycleMap.C118_partial`
* `Verif.CycleMap.C119_serialize_fallible`
* `Verif.CycleMap.C11_membership`
* `Verif.CycleMap.C120_drain_filter`
* `Verif.CycleMap.C121_extend`
* `Verif.CycleMap.C121_retain`
* `Verif.CycleMap.C122_actual`
* `Verif.CycleMap.C122_false`
* `Verif.CycleMap.C122_partial`
* `Verif.CycleMap.C123_call`
* `Verif.CycleMap.C123_history`
* `Verif.CycleMap.C123_keeps`
* `Verif.CycleMap.C124_calls`
* `Verif.CycleMap.C124_drop`
* `Verif.CycleMap.C125_drain_filter`
* `Verif.CycleMap.C126_pretty`
* `Verif.CycleMap.C127_panics`
* `Verif.CycleMap.C12_swap_left_present`
* `Verif.CycleMap.C130_insert`
* `Verif.CycleMap.C130_remove`
* `Verif.CycleMap.C130_removeViaLeft`
* `Verif.CycleMap.C130_removeViaRight`
* `Verif.CycleMap.C130_swapLeft`
* `Verif.CycleMap.C130_swapRight`
* `Verif.CycleMap.C131_drain`
* `Verif.CycleMap.C133_clear`
* `Verif.CycleMap.C133_drain`
* `Verif.CycleMap.C133_swap_left_or_insert`
* `Verif.CycleMap.C133_swap_right_or_insert`
* `Verif.CycleMap.C136_any`
* `Verif.CycleMap.C136_history`
* `Verif.CycleMap.C136_single`
* `Verif.CycleMap.C139_history`
* `Verif.CycleMap.C139_history_ok`
* `Verif.CycleMap.C139_iter_panics`
* `Verif.CycleMap.C139_lawful`
* `Verif.CycleMap.C13_actual`
* `Verif.CycleMap.C13_false`
* `Verif.CycleMap.C13_partial`
* `Verif.CycleMap.C141_cycle_order`
* `Verif.CycleMap.C141_cycle_rebuild`
* `Verif.CycleMap.C144_drain`
* `Verif.CycleMap.C144_drain_forget`
* `Verif.CycleMap.C144_swap_left`
* `Verif.CycleMap.C144_swap_left_or_insert`
* `Verif.CycleMap.C144_swap_right`
* `Verif.CycleMap.C144_swap_right_or_insert`
* `Verif.CycleMap.C145_cycle_commute`
* `Verif.CycleMap.C145_cycle_frame`
* `Verif.CycleMap.C146_parametric`
* `Verif.CycleMap.C147_exact`
* `Verif.CycleMap.C147_mirror`
* `Verif.CycleMap.C148_documented`
* `Verif.CycleMap.C148_hash_independent`
* `Verif.CycleMap.C148_usable`
* `Verif.CycleMap.C149_drain`
* `Verif.CycleMap.C149_insert`
* `Verif.CycleMap.C149_remove`
* `Verif.CycleMap.C149_retain_drainFilter`
* `Verif.CycleMap.C149_retain_retain`
* `Verif.CycleMap.C149_swapLeft`
* `Verif.CycleMap.C149_swapRight`
* `Verif.CycleMap.C149_swap_swap`
* `Verif.CycleMap.C14_swap_right_present`
* `Verif.CycleMap.C150_exact`
* `Verif.CycleMap.C150_history`
* `Verif.CycleMap.C150_repair`
* `Verif.CycleMap.C151_order`
* `Verif.CycleMap.C152_interrupted`
* `Verif.CycleMap.C152_own_panic`
* `Verif.CycleMap.C152_works`
* `Verif.CycleMap.C15_actual`
* `Verif.CycleMap.C15_false`
* `Verif.CycleMap.C15_partial`
* `Verif.CycleMap.C17_false`
* `Verif.CycleMap.C17_partial`
* `Verif.CycleMap.C18_false`
* `Verif.CycleMap.C18_panics`
* `Verif.CycleMap.C18_partial`
* `Verif.CycleMap.C19_iter`
* `Verif.CycleMap.C20_drain`
* `Verif.CycleMap.C21_actual`
* `Verif.CycleMap.C21_false`
* `Verif.CycleMap.C21_partial`
* `Verif.CycleMap.C22_drain_filter`
* `Verif.CycleMap.C22_drain_filter_pure`
* `Verif.CycleMap.C23_retain`
* `Verif.CycleMap.C23_retain_pure`
* `Verif.CycleMap.C24_eq`
* `Verif.CycleMap.C24_equivalence`
* `Verif.CycleMap.C25_extend`
* `Verif.CycleMap.C25_extend_is_inserts`
* `Verif.CycleMap.C25_from_iter`
* `Verif.CycleMap.C26_len`
* `Verif.CycleMap.C26_new`
* `Verif.CycleMap.C27_capacity`
* `Verif.CycleMap.C28_hash_independent`
* `Verif.CycleMap.C29_serde_roundtrip`
* `Verif.CycleMap.C30_deserialize`
* `Verif.CycleMap.C31_borrowed_lookup`
* `Verif.CycleMap.C32_ids`
* `Verif.CycleMap.C33_clone_eq`
* `Verif.CycleMap.C33_clone_history_eq`
* `Verif.CycleMap.C80_drain_filter`
* `Verif.CycleMap.C80_retain`
* `Verif.CycleMap.C85_hashes`
* `Verif.CycleMap.C87_room`
* `Verif.CycleMap.C89_false`
* `Verif.CycleMap.C97_clear`
* `Verif.CycleMap.C98_false`
* `Verif.CycleMap.C98_partial`
* `Verif.CycleMap.C99_insert`
* `Verif.GroupMap.C102_actual`
* `Verif.GroupMap.C102_false`
* `Verif.GroupMap.C102_mid_group`
* `Verif.GroupMap.C102_partial`
* `Verif.GroupMap.C109_false`
* `Verif.GroupMap.C109_partial`
* `Verif.GroupMap.C116_entry_item`
* `Verif.GroupMap.C116_left_entry_eq`
* `Verif.GroupMap.C116_right_entry_eq`
* `Verif.GroupMap.C117_memory`
* `Verif.GroupMap.C121_extend`
* `Verif.GroupMap.C121_retain_unpaired`
* `Verif.GroupMap.C122_actual`
* `Verif.GroupMap.C122_false`
* `Verif.GroupMap.C122_partial`
* `Verif.GroupMap.C123_call`
* `Verif.GroupMap.C123_history`
* `Verif.GroupMap.C123_keeps`
* `Verif.GroupMap.C126_pretty`
* `Verif.GroupMap.C127_extend`
* `Verif.GroupMap.C127_panics`
* `Verif.GroupMap.C130_insertLeft`
* `Verif.GroupMap.C130_insertLeft_new`
* `Verif.GroupMap.C130_insertRight`
* `Verif.GroupMap.C130_pair`
* `Verif.GroupMap.C130_remove`
* `Verif.GroupMap.C130_removeLeft`
* `Verif.GroupMap.C130_removeRight`
* `Verif.GroupMap.C131_retain_paired`
* `Verif.GroupMap.C135_clear`
* `Verif.GroupMap.C135_eq`
* `Verif.GroupMap.C135_insert`
* `Verif.GroupMap.C135_retain_paired`
* `Verif.GroupMap.C135_retain_unpaired`
* `Verif.GroupMap.C135_sizes`
* `Verif.GroupMap.C135_swap_right`
* `Verif.GroupMap.C135_swap_right_remove`
* `Verif.GroupMap.C138_any`
* `Verif.GroupMap.C138_history`
* `Verif.GroupMap.C138_single`
* `Verif.GroupMap.C141_group_rebuild`
* `Verif.GroupMap.C143_history`
* `Verif.GroupMap.C143_history_ok`
* `Verif.GroupMap.C143_lawful`
* `Verif.GroupMap.C143_lawful_sane`
* `Verif.GroupMap.C143_retain_panics`
* `Verif.GroupMap.C144_insert`
* `Verif.GroupMap.C144_retain_paired`
* `Verif.GroupMap.C144_retain_unpaired`
* `Verif.GroupMap.C144_sizes`
* `Verif.GroupMap.C144_swap_right`
* `Verif.GroupMap.C144_swap_right_remove`
* `Verif.GroupMap.C145_group_commute`
* `Verif.GroupMap.C145_group_frame`
* `Verif.GroupMap.C146_parametric`
* `Verif.GroupMap.C148_documented`
* `Verif.GroupMap.C148_hash_independent`
* `Verif.GroupMap.C148_usable`
* `Verif.GroupMap.C149_insert`
* `Verif.GroupMap.C149_insertRemove`
* `Verif.GroupMap.C149_insertRight`
* `Verif.GroupMap.C149_pair`
* `Verif.GroupMap.C149_removeRight`
* `Verif.GroupMap.C150_exact`
* `Verif.GroupMap.C150_from_iter`
* `Verif.GroupMap.C150_from_pairs`
* `Verif.GroupMap.C150_history`
* `Verif.GroupMap.C150_repair`
* `Verif.GroupMap.C151_order`
* `Verif.GroupMap.C153_history`
* `Verif.GroupMap.C153_interrupted`
* `Verif.GroupMap.C153_no_panic`
* `Verif.GroupMap.C153_serves`
* `Verif.GroupMap.C32_ids`
* `Verif.GroupMap.C60_history`
* `Verif.GroupMap.C60_history_from`
* `Verif.GroupMap.C60_history_with_capacity`
* `Verif.GroupMap.C60_reachable_shows`
* `Verif.GroupMap.C61_coherent`
* `Verif.GroupMap.C62_actual`
* `Verif.GroupMap.C62_false`
* `Verif.GroupMap.C62_partial`
* `Verif.GroupMap.C63_insert_remove`
* `Verif.GroupMap.C64_insert_left`
* `Verif.GroupMap.C64_insert_left_absent`
* `Verif.GroupMap.C65_insert_right`
* `Verif.GroupMap.C66_actual`
* `Verif.GroupMap.C66_duplicates`
* `Verif.GroupMap.C66_false`
* `Verif.GroupMap.C66_partial`
* `Verif.GroupMap.C67_actual`
* `Verif.GroupMap.C67_false`
* `Verif.GroupMap.C67_partial`
* `Verif.GroupMap.C68_pair`
* `Verif.GroupMap.C68_pair_again`
* `Verif.GroupMap.C68_pair_missing`
* `Verif.GroupMap.C68_pair_result`
* `Verif.GroupMap.C69_remove_left`
* `Verif.GroupMap.C70_remove`
* `Verif.GroupMap.C70_remove_not_paired`
* `Verif.GroupMap.C70_remove_right`
* `Verif.GroupMap.C71_queries`
* `Verif.GroupMap.C72_iterators`
* `Verif.GroupMap.C73_actual`
* `Verif.GroupMap.C73_false`
* `Verif.GroupMap.C73_mid_group_false`
* `Verif.GroupMap.C73_partial`
* `Verif.GroupMap.C74_actual`
* `Verif.GroupMap.C74_actual_pure`
* `Verif.GroupMap.C74_false`
* `Verif.GroupMap.C74_partial`
* `Verif.GroupMap.C75_actual`
* `Verif.GroupMap.C75_actual_pure`
* `Verif.GroupMap.C75_false`
* `Verif.GroupMap.C75_partial`
* `Verif.GroupMap.C76_actual`
* `Verif.GroupMap.C76_eq_partial`
* `Verif.GroupMap.C76_false`
* `Verif.GroupMap.C76_not_symmetric_false`
* `Verif.GroupMap.C76_refl`
* `Verif.GroupMap.C77_extend`
* `Verif.GroupMap.C77_repeated_pair`
* `Verif.GroupMap.C78_clear`
* `Verif.GroupMap.C78_len`
* `Verif.GroupMap.C78_new`
* `Verif.GroupMap.C79_false`
* `Verif.GroupMap.C79_hash_independent_partial`
* `Verif.GroupMap.C83_clone_eq`
* `Verif.GroupMap.C83_clone_history_eq`
* `Verif.GroupMap.C84_borrowed_lookup`
* `Verif.GroupMap.C91_room`
* `Verif.GroupMap.C93_retain_paired`
* `Verif.GroupMap.C93_retain_unpaired`
* `Verif.GroupMap.C97_clear`
* `Verif.OptionalPair.C103_debug`
* `Verif.PartialMap.C101_actual`
* `Verif.PartialMap.C101_false`
* `Verif.PartialMap.C101_partial`
* `Verif.PartialMap.C104_false`
* `Verif.PartialMap.C110_insert`
* `Verif.PartialMap.C111_false`
* `Verif.PartialMap.C111_partial`
* `Verif.PartialMap.C112_own_panic`
* `Verif.PartialMap.C114_actual`
* `Verif.PartialMap.C114_false`
* `Verif.PartialMap.C114_partial`
* `Verif.PartialMap.C115_actual`
* `Verif.PartialMap.C115_false`
* `Verif.PartialMap.C115_partial`
* `Verif.PartialMap.C116_entry_eq`
* `Verif.PartialMap.C116_entry_item`
* `Verif.PartialMap.C117_memory`
* `Verif.PartialMap.C120_drain_filter`
* `Verif.PartialMap.C121_extend`
* `Verif.PartialMap.C121_retain`
* `Verif.PartialMap.C121_retain_paired`
* `Verif.PartialMap.C121_retain_unpaired`
* `Verif.PartialMap.C122_actual`
* `Verif.PartialMap.C122_false`
* `Verif.PartialMap.C122_partial`
* `Verif.PartialMap.C123_call`
* `Verif.PartialMap.C123_history`
* `Verif.PartialMap.C123_keeps`
* `Verif.PartialMap.C124_calls`
* `Verif.PartialMap.C124_drop`
* `Verif.PartialMap.C125_drain_filter`
* `Verif.PartialMap.C126_pretty`
* `Verif.PartialMap.C127_panics`
* `Verif.PartialMap.C128_iterPaired`
* `Verif.PartialMap.C130_insert`
* `Verif.PartialMap.C130_insertLeft`
* `Verif.PartialMap.C130_insertRight`
* `Verif.PartialMap.C130_pair`
* `Verif.PartialMap.C130_pairForced`
* `Verif.PartialMap.C130_pairForcedRemove`
* `Verif.PartialMap.C130_remove`
* `Verif.PartialMap.C130_removeViaLeft`
* `Verif.PartialMap.C130_removeViaRight`
* `Verif.PartialMap.C130_swapLeft`
* `Verif.PartialMap.C130_swapRight`
* `Verif.PartialMap.C130_unpair`
* `Verif.PartialMap.C131_drain`
* `Verif.PartialMap.C131_once`
* `Verif.PartialMap.C134_clear`
* `Verif.PartialMap.C134_drain`
* `Verif.PartialMap.C134_drain_filter`
* `Verif.PartialMap.C134_eq`
* `Verif.PartialMap.C134_iter`
* `Verif.PartialMap.C134_retain`
* `Verif.PartialMap.C134_sizes`
* `Verif.PartialMap.C134_swap_left_or_insert`
* `Verif.PartialMap.C134_swap_right_or_insert`
* `Verif.PartialMap.C134_unpair`
* `Verif.PartialMap.C137_any`
* `Verif.PartialMap.C137_history`
* `Verif.PartialMap.C137_single`
* `Verif.PartialMap.C141_partial_order`
* `Verif.PartialMap.C141_partial_rebuild`
* `Verif.PartialMap.C142_history`
* `Verif.PartialMap.C142_history_ok`
* `Verif.PartialMap.C142_lawful`
* `Verif.PartialMap.C142_retain_panics`
* `Verif.PartialMap.C144_drain`
* `Verif.PartialMap.C144_drain_filter`
* `Verif.PartialMap.C144_iter`
* `Verif.PartialMap.C144_retain`
* `Verif.PartialMap.C144_sizes`
* `Verif.PartialMap.C144_swap`
* `Verif.PartialMap.C144_swap_or_insert`
* `Verif.PartialMap.C144_unpair`
* `Verif.PartialMap.C145_partial_commute`
* `Verif.PartialMap.C145_partial_frame`
* `Verif.PartialMap.C146_parametric`
* `Verif.PartialMap.C147_exact`
* `Verif.PartialMap.C147_mirror`
* `Verif.PartialMap.C148_documented`
* `Verif.PartialMap.C148_hash_independent`
* `Verif.PartialMap.C148_usable`
* `Verif.PartialMap.C149_insert`
* `Verif.PartialMap.C149_pairForced`
* `Verif.PartialMap.C149_pairForcedRemove`
* `Verif.PartialMap.C149_remove`
* `Verif.PartialMap.C149_removeViaLeft`
* `Verif.PartialMap.C149_removeViaRight`
* `Verif.PartialMap.C149_retain`
* `Verif.PartialMap.C149_swapLeft`
* `Verif.PartialMap.C149_swapRight`
* `Verif.PartialMap.C150_exact`
* `Verif.PartialMap.C150_history`
* `Verif.PartialMap.C150_repair`
* `Verif.PartialMap.C151_order`
* `Verif.PartialMap.C154_history`
* `Verif.PartialMap.C154_interrupted`
* `Verif.PartialMap.C154_no_panic`
* `Verif.PartialMap.C154_serves`
* `Verif.PartialMap.C155_drain_filter`
* `Verif.PartialMap.C155_serves`
* `Verif.PartialMap.C32_ids`
* `Verif.PartialMap.C34_history`
* `Verif.PartialMap.C34_history_from`
* `Verif.PartialMap.C34_history_with_capacity`
* `Verif.PartialMap.C34_reachable_shows`
* `Verif.PartialMap.C35_symmetric`
* `Verif.PartialMap.C36_insert`
* `Verif.PartialMap.C37_insert_lone`
* `Verif.PartialMap.C38_pair`
* `Verif.PartialMap.C39_pair_forced`
* `Verif.PartialMap.C40_pair_forced_remove`
* `Verif.PartialMap.C41_actual`
* `Verif.PartialMap.C41_false`
* `Verif.PartialMap.C41_partial`
* `Verif.PartialMap.C42_queries`
* `Verif.PartialMap.C43_remove_via`
* `Verif.PartialMap.C44_remove_one`
* `Verif.PartialMap.C45_remove`
* `Verif.PartialMap.C46_swap_left_present`
* `Verif.PartialMap.C46_swap_right_present`
* `Verif.PartialMap.C47_actual`
* `Verif.PartialMap.C47_false`
* `Verif.PartialMap.C47_partial`
* `Verif.PartialMap.C48_swap_checked`
* `Verif.PartialMap.C49_false`
* `Verif.PartialMap.C49_panics`
* `Verif.PartialMap.C49_partial`
* `Verif.PartialMap.C50_actual`
* `Verif.PartialMap.C50_false`
* `Verif.PartialMap.C50_partial`
* `Verif.PartialMap.C51_iterators`
* `Verif.PartialMap.C52_false`
* `Verif.PartialMap.C52_partial`
* `Verif.PartialMap.C53_actual`
* `Verif.PartialMap.C53_false`
* `Verif.PartialMap.C53_partial`
* `Verif.PartialMap.C54_actual`
* `Verif.PartialMap.C54_false`
* `Verif.PartialMap.C54_partial`
* `Verif.PartialMap.C55_actual`
* `Verif.PartialMap.C55_false`
* `Verif.PartialMap.C55_false_paired_unpaired`
* `Verif.PartialMap.C55_partial`
* `Verif.PartialMap.C56_actual`
* `Verif.PartialMap.C56_eq_partial`
* `Verif.PartialMap.C56_false`
* `Verif.PartialMap.C56_not_symmetric_false`
* `Verif.PartialMap.C56_refl`
* `Verif.PartialMap.C57_extend`
* `Verif.PartialMap.C57_extend_is_inserts`
* `Verif.PartialMap.C57_extend_pairs`
* `Verif.PartialMap.C57_from_iter`
* `Verif.PartialMap.C57_from_pairs`
* `Verif.PartialMap.C58_capacity`
* `Verif.PartialMap.C58_len`
* `Verif.PartialMap.C58_new`
* `Verif.PartialMap.C59_false`
* `Verif.PartialMap.C59_hash_independent_partial`
* `Verif.PartialMap.C81_clone_eq`
* `Verif.PartialMap.C81_clone_history_eq`
* `Verif.PartialMap.C82_borrowed_lookup`
* `Verif.PartialMap.C85_hashes`
* `Verif.PartialMap.C90_room`
* `Verif.PartialMap.C92_drain_filter`
* `Verif.PartialMap.C92_retain`
* `Verif.PartialMap.C92_retain_paired`
* `Verif.PartialMap.C92_retain_unpaired`
* `Verif.PartialMap.C97_clear`
* `Verif.PartialMap.C99_insert`
* `Verif.Swiss.C125_swiss_cycleMap`
* `Verif.Swiss.C125_swiss_partialMap`
* `Verif.Swiss.C94_contract`
* `Verif.Swiss.C94_cycle_history`
* `Verif.Swiss.C94_cycle_tables`
* `Verif.Swiss.C94_cycle_tables_always`
* `Verif.Swiss.C94_group_history`
* `Verif.Swiss.C94_group_tables`
* `Verif.Swiss.C94_partial_history`
* `Verif.Swiss.C94_partial_tables`
* `Verif.Twin.C129_call`
* `Verif.Twin.C129_history`
* `Verif.Twin.C129_new`
* `Verif.Twin.C129_observers`
* `Verif.Twin.C129_swapLeftOrInsert`
* `Verif.Twin.C129_swapRightOrInsert`

## propext, Quot.sound

* `Verif.C140_cycle_partial`
* `Verif.C140_partial`
* `Verif.CycleMap.C104_size_hint`
* `Verif.CycleMap.C105_agrees`
* `Verif.CycleMap.C105_closures`
* `Verif.CycleMap.C105_items`
* `Verif.CycleMap.C106_witness`
* `Verif.CycleMap.C106_witness_insert`
* `Verif.CycleMap.C115_witness`
* `Verif.CycleMap.C116_entries_differ`
* `Verif.CycleMap.C118_false`
* `Verif.CycleMap.C128_drain`
* `Verif.CycleMap.C128_drainFilter`
* `Verif.CycleMap.C128_iter`
* `Verif.CycleMap.C132_all`
* `Verif.CycleMap.C132_drop`
* `Verif.CycleMap.C133_swap`
* `Verif.CycleMap.C151_right_order`
* `Verif.CycleMap.C152_agrees`
* `Verif.CycleMap.C16_checked_swaps`
* `Verif.CycleMap.C32_counter`
* `Verif.CycleMap.C33_clone_history`
* `Verif.CycleMap.C87_with_capacity`
* `Verif.CycleMap.C88_reserve`
* `Verif.CycleMap.C88_shrink`
* `Verif.CycleMap.C89_actual`
* `Verif.CycleMap.C95_ids`
* `Verif.CycleMap.C95_items`
* `Verif.CycleMap.C96_hasher`
* `Verif.CycleMap.C98_witness`
* `Verif.CycleMap.C99_remove`
* `Verif.GroupMap.C108_agrees`
* `Verif.GroupMap.C108_closures`
* `Verif.GroupMap.C108_effect`
* `Verif.GroupMap.C108_items`
* `Verif.GroupMap.C109_witness`
* `Verif.GroupMap.C109_witness_insert`
* `Verif.GroupMap.C109_witness_insert_left`
* `Verif.GroupMap.C109_witness_pair`
* `Verif.GroupMap.C109_witness_remove_right`
* `Verif.GroupMap.C116_entries_differ`
* `Verif.GroupMap.C128_iter`
* `Verif.GroupMap.C128_iterPaired`
* `Verif.GroupMap.C128_pairIter`
* `Verif.GroupMap.C132_all`
* `Verif.GroupMap.C132_drop`
* `Verif.GroupMap.C143_retain_unpaired_drops_group`
* `Verif.GroupMap.C153_agrees`
* `Verif.GroupMap.C32_counter`
* `Verif.GroupMap.C77_pairs`
* `Verif.GroupMap.C83_clone_history`
* `Verif.GroupMap.C85_hashes`
* `Verif.GroupMap.C86_ids`
* `Verif.GroupMap.C86_items`
* `Verif.GroupMap.C91_with_capacity`
* `Verif.GroupMap.C96_hasher`
* `Verif.GroupMap.C99_insert`
* `Verif.GroupMap.C99_remove`
* `Verif.PartialMap.C104_partial`
* `Verif.PartialMap.C110_agrees`
* `Verif.PartialMap.C110_closures`
* `Verif.PartialMap.C110_items`
* `Verif.PartialMap.C110_remove`
* `Verif.PartialMap.C111_retain_partial`
* `Verif.PartialMap.C111_witness`
* `Verif.PartialMap.C111_witness_insert`
* `Verif.PartialMap.C116_entries_differ`
* `Verif.PartialMap.C128_drainFilter`
* `Verif.PartialMap.C131_calm`
* `Verif.PartialMap.C132_all`
* `Verif.PartialMap.C132_drop`
* `Verif.PartialMap.C134_size_hint`
* `Verif.PartialMap.C134_swap`
* `Verif.PartialMap.C142_lawful_sane`
* `Verif.PartialMap.C142_retain_paired_tears`
* `Verif.PartialMap.C142_retain_unpaired_tears`
* `Verif.PartialMap.C154_agrees`
* `Verif.PartialMap.C32_counter`
* `Verif.PartialMap.C81_clone_history`
* `Verif.PartialMap.C90_reserve`
* `Verif.PartialMap.C90_shrink`
* `Verif.PartialMap.C90_with_capacity`
* `Verif.PartialMap.C95_items`
* `Verif.PartialMap.C96_hasher`
* `Verif.PartialMap.C99_remove`
