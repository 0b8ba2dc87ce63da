{
 "claims": [
  {
   "property": "C01",
   "status": "proved",
   "theorems": [
    "Verif.OptionalPair.C01_pair_roundtrip"
   ],
   "note": ""
  },
  {
   "property": "C02",
   "status": "proved",
   "theorems": [
    "Verif.OptionalPair.C02_option_roundtrip"
   ],
   "note": ""
  },
  {
   "property": "C03",
   "status": "proved",
   "theorems": [
    "Verif.OptionalPair.C03_accessors",
    "Verif.OptionalPair.C03_eq"
   ],
   "note": ""
  },
  {
   "property": "C04",
   "status": "proved",
   "theorems": [
    "Verif.OptionalPair.C04_mapping"
   ],
   "note": ""
  },
  {
   "property": "C05",
   "status": "proved",
   "theorems": [
    "Verif.CycleMap.C05_history",
    "Verif.CycleMap.C05_history_from",
    "Verif.CycleMap.C05_history_with_capacity",
    "Verif.CycleMap.C05_reachable_shows"
   ],
   "note": "History theorem covers every listed call; SafeRun only excludes swap_right_or_insert calls that reach unreachable! (C18) and early-dropped drains (C21)."
  },
  {
   "property": "C06",
   "status": "proved",
   "theorems": [
    "Verif.CycleMap.C06_lookups_inverse"
   ],
   "note": ""
  },
  {
   "property": "C07",
   "status": "proved",
   "theorems": [
    "Verif.CycleMap.C07_insert_effect"
   ],
   "note": ""
  },
  {
   "property": "C08",
   "status": "proved",
   "theorems": [
    "Verif.CycleMap.C08_insert_returns"
   ],
   "note": ""
  },
  {
   "property": "C09",
   "status": "proved",
   "theorems": [
    "Verif.CycleMap.C09_remove_via"
   ],
   "note": ""
  },
  {
   "property": "C10",
   "status": "proved",
   "theorems": [
    "Verif.CycleMap.C10_remove"
   ],
   "note": ""
  },
  {
   "property": "C11",
   "status": "proved",
   "theorems": [
    "Verif.CycleMap.C11_membership"
   ],
   "note": ""
  },
  {
   "property": "C12",
   "status": "proved",
   "theorems": [
    "Verif.CycleMap.C12_swap_left_present"
   ],
   "note": ""
  },
  {
   "property": "C13",
   "status": "partial",
   "theorems": [
    "Verif.CycleMap.C13_actual",
    "Verif.CycleMap.C13_false",
    "Verif.CycleMap.C13_partial"
   ],
   "note": "False of the code: with `old` absent and `new` present the swap removes new's pair. C13_full is the documented claim, C13_false refutes it, C13_actual gives the exact behaviour, C13_partial is the claim when `new` is absent."
  },
  {
   "property": "C14",
   "status": "proved",
   "theorems": [
    "Verif.CycleMap.C14_swap_right_present"
   ],
   "note": ""
  },
  {
   "property": "C15",
   "status": "partial",
   "theorems": [
    "Verif.CycleMap.C15_actual",
    "Verif.CycleMap.C15_false",
    "Verif.CycleMap.C15_partial"
   ],
   "note": "As C13, mirrored."
  },
  {
   "property": "C16",
   "status": "proved",
   "theorems": [
    "Verif.CycleMap.C16_checked_swaps"
   ],
   "note": ""
  },
  {
   "property": "C17",
   "status": "partial",
   "theorems": [
    "Verif.CycleMap.C17_false",
    "Verif.CycleMap.C17_partial"
   ],
   "note": "False of the code: the right item of a displaced pair is dropped instead of returned. C17_full/C17_false/C17_partial."
  },
  {
   "property": "C18",
   "status": "partial",
   "theorems": [
    "Verif.CycleMap.C18_false",
    "Verif.CycleMap.C18_panics",
    "Verif.CycleMap.C18_partial"
   ],
   "note": "False of the code: swap_right_or_insert panics (unreachable!) for some inputs. C18_panics characterises them, C18_partial proves the claim for all others, C18_false refutes C18_full."
  },
  {
   "property": "C19",
   "status": "proved",
   "theorems": [
    "Verif.CycleMap.C19_iter"
   ],
   "note": ""
  },
  {
   "property": "C20",
   "status": "proved",
   "theorems": [
    "Verif.CycleMap.C20_drain"
   ],
   "note": ""
  },
  {
   "property": "C21",
   "status": "partial",
   "theorems": [
    "Verif.CycleMap.C21_actual",
    "Verif.CycleMap.C21_false",
    "Verif.CycleMap.C21_partial"
   ],
   "note": "False of the code: an early-dropped drain empties only the left table. C21_actual is the exact state, C21_partial the full-consumption case, C21_false refutes C21_full."
  },
  {
   "property": "C22",
   "status": "proved",
   "theorems": [
    "Verif.CycleMap.C22_drain_filter",
    "Verif.CycleMap.C22_drain_filter_pure"
   ],
   "note": ""
  },
  {
   "property": "C23",
   "status": "proved",
   "theorems": [
    "Verif.CycleMap.C23_retain",
    "Verif.CycleMap.C23_retain_pure"
   ],
   "note": ""
  },
  {
   "property": "C24",
   "status": "proved",
   "theorems": [
    "Verif.CycleMap.C24_eq",
    "Verif.CycleMap.C24_equivalence"
   ],
   "note": ""
  },
  {
   "property": "C25",
   "status": "proved",
   "theorems": [
    "Verif.CycleMap.C25_extend",
    "Verif.CycleMap.C25_extend_is_inserts",
    "Verif.CycleMap.C25_from_iter"
   ],
   "note": ""
  },
  {
   "property": "C26",
   "status": "proved",
   "theorems": [
    "Verif.CycleMap.C26_len",
    "Verif.CycleMap.C26_new"
   ],
   "note": ""
  },
  {
   "property": "C27",
   "status": "proved",
   "theorems": [
    "Verif.CycleMap.C27_capacity"
   ],
   "note": ""
  },
  {
   "property": "C28",
   "status": "proved",
   "theorems": [
    "Verif.CycleMap.C28_hash_independent"
   ],
   "note": ""
  },
  {
   "property": "C29",
   "status": "proved",
   "theorems": [
    "Verif.CycleMap.C29_serde_roundtrip"
   ],
   "note": ""
  },
  {
   "property": "C30",
   "status": "proved",
   "theorems": [
    "Verif.CycleMap.C30_deserialize"
   ],
   "note": ""
  },
  {
   "property": "C31",
   "status": "proved",
   "theorems": [
    "Verif.CycleMap.C31_borrowed_lookup"
   ],
   "note": ""
  },
  {
   "property": "C32",
   "status": "proved",
   "theorems": [
    "Verif.CycleMap.C32_counter",
    "Verif.CycleMap.C32_ids",
    "Verif.GroupMap.C32_counter",
    "Verif.GroupMap.C32_ids",
    "Verif.PartialMap.C32_counter",
    "Verif.PartialMap.C32_ids"
   ],
   "note": "Ids are unbounded naturals in the model; these theorems bound them by the number of insertions, for all three maps."
  },
  {
   "property": "C33",
   "status": "proved",
   "theorems": [
    "Verif.CycleMap.C33_clone_eq",
    "Verif.CycleMap.C33_clone_history",
    "Verif.CycleMap.C33_clone_history_eq"
   ],
   "note": ""
  },
  {
   "property": "C34",
   "status": "proved",
   "theorems": [
    "Verif.PartialMap.C34_history",
    "Verif.PartialMap.C34_history_from",
    "Verif.PartialMap.C34_history_with_capacity",
    "Verif.PartialMap.C34_reachable_shows"
   ],
   "note": "History theorem covers every modelled call; SafeRun only excludes swap_*_or_insert calls that reach a panic (C49), unpair calls hit by a hash collision (C41), drain_filter closures that accept SomeRight(r) for a paired r (C54) and clones whose item Clone is not equal to the original."
  },
  {
   "property": "C35",
   "status": "proved",
   "theorems": [
    "Verif.PartialMap.C35_symmetric"
   ],
   "note": ""
  },
  {
   "property": "C36",
   "status": "proved",
   "theorems": [
    "Verif.PartialMap.C36_insert"
   ],
   "note": ""
  },
  {
   "property": "C37",
   "status": "proved",
   "theorems": [
    "Verif.PartialMap.C37_insert_lone"
   ],
   "note": ""
  },
  {
   "property": "C38",
   "status": "proved",
   "theorems": [
    "Verif.PartialMap.C38_pair"
   ],
   "note": ""
  },
  {
   "property": "C39",
   "status": "proved",
   "theorems": [
    "Verif.PartialMap.C39_pair_forced"
   ],
   "note": ""
  },
  {
   "property": "C40",
   "status": "proved",
   "theorems": [
    "Verif.PartialMap.C40_pair_forced_remove"
   ],
   "note": ""
  },
  {
   "property": "C41",
   "status": "partial",
   "theorems": [
    "Verif.PartialMap.C41_actual",
    "Verif.PartialMap.C41_false",
    "Verif.PartialMap.C41_partial"
   ],
   "note": "False of the code: unpair compares hashes only. C41_full is the documented claim, C41_false refutes it, C41_actual gives the exact behaviour, C41_partial is the claim when the hashes distinguish the items concerned."
  },
  {
   "property": "C42",
   "status": "proved",
   "theorems": [
    "Verif.PartialMap.C42_queries"
   ],
   "note": ""
  },
  {
   "property": "C43",
   "status": "proved",
   "theorems": [
    "Verif.PartialMap.C43_remove_via"
   ],
   "note": ""
  },
  {
   "property": "C44",
   "status": "proved",
   "theorems": [
    "Verif.PartialMap.C44_remove_one"
   ],
   "note": ""
  },
  {
   "property": "C45",
   "status": "proved",
   "theorems": [
    "Verif.PartialMap.C45_remove"
   ],
   "note": ""
  },
  {
   "property": "C46",
   "status": "proved",
   "theorems": [
    "Verif.PartialMap.C46_swap_left_present",
    "Verif.PartialMap.C46_swap_right_present"
   ],
   "note": ""
  },
  {
   "property": "C47",
   "status": "partial",
   "theorems": [
    "Verif.PartialMap.C47_actual",
    "Verif.PartialMap.C47_false",
    "Verif.PartialMap.C47_partial"
   ],
   "note": "False of the code: with `old` absent and `new` present the swap removes new's entry. C47_full/C47_false/C47_actual/C47_partial as in C13."
  },
  {
   "property": "C48",
   "status": "proved",
   "theorems": [
    "Verif.PartialMap.C48_swap_checked"
   ],
   "note": ""
  },
  {
   "property": "C49",
   "status": "partial",
   "theorems": [
    "Verif.PartialMap.C49_false",
    "Verif.PartialMap.C49_panics",
    "Verif.PartialMap.C49_partial"
   ],
   "note": "False of the code: swap_left_or_insert / swap_right_or_insert panic for some inputs. C49_panics characterises them, C49_partial proves the claim for all others, C49_false refutes C49_full."
  },
  {
   "property": "C50",
   "status": "partial",
   "theorems": [
    "Verif.PartialMap.C50_actual",
    "Verif.PartialMap.C50_false",
    "Verif.PartialMap.C50_partial"
   ],
   "note": "False of the code: iter skips lone right items. C50_actual is the exact behaviour, C50_partial the case without lone right items, C50_false refutes C50_full."
  },
  {
   "property": "C51",
   "status": "proved",
   "theorems": [
    "Verif.PartialMap.C51_iterators"
   ],
   "note": ""
  },
  {
   "property": "C52",
   "status": "partial",
   "theorems": [
    "Verif.PartialMap.C52_actual",
    "Verif.PartialMap.C52_false",
    "Verif.PartialMap.C52_partial"
   ],
   "note": "False of the code: the size_hint of PairedIter and UnpairedIter and the len of DrainIter count the left entries. C52_partial proves every len that is right, C52_actual says what the others give, C52_false refutes C52_full."
  },
  {
   "property": "C53",
   "status": "partial",
   "theorems": [
    "Verif.PartialMap.C53_actual",
    "Verif.PartialMap.C53_false",
    "Verif.PartialMap.C53_partial"
   ],
   "note": "False of the code: drain yields at most one lone right item, the others are dropped. C53_actual is the exact behaviour, C53_partial the case of at most one lone right item, C53_false refutes C53_full."
  },
  {
   "property": "C54",
   "status": "partial",
   "theorems": [
    "Verif.PartialMap.C54_actual",
    "Verif.PartialMap.C54_false",
    "Verif.PartialMap.C54_partial"
   ],
   "note": "False of the code: the second pass offers paired right items as SomeRight, calling the closure twice and tearing pairs apart. C54_actual is the exact behaviour for every closure, C54_partial the claim for closures that accept SomeRight(r) for no r of a pair they reject (C144: exactly these), C54_false refutes C54_full."
  },
  {
   "property": "C55",
   "status": "partial",
   "theorems": [
    "Verif.PartialMap.C55_actual",
    "Verif.PartialMap.C55_false",
    "Verif.PartialMap.C55_false_paired_unpaired",
    "Verif.PartialMap.C55_partial"
   ],
   "note": "False of the code: all three keep what the closure rejects. C55_actual is the exact behaviour for every closure, C55_partial the claim with the closure negated, C55_false and C55_false_paired_unpaired refute C55_full."
  },
  {
   "property": "C56",
   "status": "partial",
   "theorems": [
    "Verif.PartialMap.C56_actual",
    "Verif.PartialMap.C56_eq_partial",
    "Verif.PartialMap.C56_false",
    "Verif.PartialMap.C56_not_symmetric_false",
    "Verif.PartialMap.C56_refl"
   ],
   "note": "False of the code: the length check uses && and a missing item counts as unpaired. C56_full is the claim, C56_false refutes it, C56_not_symmetric_false shows that == is not symmetric, C56_actual is exactly what == computes, C56_eq_partial and C56_refl say when the answer is right."
  },
  {
   "property": "C57",
   "status": "proved",
   "theorems": [
    "Verif.PartialMap.C57_extend",
    "Verif.PartialMap.C57_extend_is_inserts",
    "Verif.PartialMap.C57_extend_pairs",
    "Verif.PartialMap.C57_from_iter",
    "Verif.PartialMap.C57_from_pairs"
   ],
   "note": ""
  },
  {
   "property": "C58",
   "status": "proved",
   "theorems": [
    "Verif.PartialMap.C58_capacity",
    "Verif.PartialMap.C58_len",
    "Verif.PartialMap.C58_new"
   ],
   "note": ""
  },
  {
   "property": "C59",
   "status": "partial",
   "theorems": [
    "Verif.PartialMap.C59_false",
    "Verif.PartialMap.C59_hash_independent_partial"
   ],
   "note": "False of the code because unpair compares hashes only: C59_full is the claim, C59_false refutes it, C59_hash_independent_partial proves it for histories that are safe under both hash builders."
  },
  {
   "property": "C60",
   "status": "proved",
   "theorems": [
    "Verif.GroupMap.C60_history",
    "Verif.GroupMap.C60_history_from",
    "Verif.GroupMap.C60_history_with_capacity",
    "Verif.GroupMap.C60_reachable_shows"
   ],
   "note": ""
  },
  {
   "property": "C61",
   "status": "proved",
   "theorems": [
    "Verif.GroupMap.C61_coherent"
   ],
   "note": ""
  },
  {
   "property": "C62",
   "status": "partial",
   "theorems": [
    "Verif.GroupMap.C62_actual",
    "Verif.GroupMap.C62_false",
    "Verif.GroupMap.C62_partial"
   ],
   "note": "False of the code: inserting a pair that is already present leaves the map with a left item that its group does not list. C62_full is the claim, C62_false refutes it, C62_partial proves it for pairs not yet present, C62_actual describes the other case."
  },
  {
   "property": "C63",
   "status": "proved",
   "theorems": [
    "Verif.GroupMap.C63_insert_remove"
   ],
   "note": ""
  },
  {
   "property": "C64",
   "status": "proved",
   "theorems": [
    "Verif.GroupMap.C64_insert_left",
    "Verif.GroupMap.C64_insert_left_absent"
   ],
   "note": ""
  },
  {
   "property": "C65",
   "status": "proved",
   "theorems": [
    "Verif.GroupMap.C65_insert_right"
   ],
   "note": ""
  },
  {
   "property": "C66",
   "status": "partial",
   "theorems": [
    "Verif.GroupMap.C66_actual",
    "Verif.GroupMap.C66_duplicates",
    "Verif.GroupMap.C66_false",
    "Verif.GroupMap.C66_partial"
   ],
   "note": "False of the code: swap_right does not update the back references of the group. C66_full is the claim, C66_false refutes it; C66_partial proves it when the right item is alone, C66_actual describes the result exactly, C66_duplicates what happens when the new item is already present."
  },
  {
   "property": "C67",
   "status": "partial",
   "theorems": [
    "Verif.GroupMap.C67_actual",
    "Verif.GroupMap.C67_false",
    "Verif.GroupMap.C67_partial"
   ],
   "note": "False of the code, as for swap_right (C66). C67_full is the claim, C67_partial the part that holds, C67_actual the exact behaviour, C67_false the refutation."
  },
  {
   "property": "C68",
   "status": "proved",
   "theorems": [
    "Verif.GroupMap.C68_pair",
    "Verif.GroupMap.C68_pair_again",
    "Verif.GroupMap.C68_pair_missing",
    "Verif.GroupMap.C68_pair_result"
   ],
   "note": ""
  },
  {
   "property": "C69",
   "status": "proved",
   "theorems": [
    "Verif.GroupMap.C69_remove_left"
   ],
   "note": ""
  },
  {
   "property": "C70",
   "status": "proved",
   "theorems": [
    "Verif.GroupMap.C70_remove",
    "Verif.GroupMap.C70_remove_not_paired",
    "Verif.GroupMap.C70_remove_right"
   ],
   "note": ""
  },
  {
   "property": "C71",
   "status": "proved",
   "theorems": [
    "Verif.GroupMap.C71_queries"
   ],
   "note": ""
  },
  {
   "property": "C72",
   "status": "proved",
   "theorems": [
    "Verif.GroupMap.C72_iterators"
   ],
   "note": ""
  },
  {
   "property": "C73",
   "status": "partial",
   "theorems": [
    "Verif.GroupMap.C73_actual",
    "Verif.GroupMap.C73_false",
    "Verif.GroupMap.C73_mid_group_false",
    "Verif.GroupMap.C73_partial",
    "Verif.GroupMap.C73_size_hint_actual"
   ],
   "note": "False of the code: Iter's clone and len forget the rest of the current group, and the size_hints of Iter and UnpairedIter count right items. C73_full is the claim, C73_false and C73_mid_group_false refute it, C73_actual is the exact behaviour of Iter at every position, C73_partial the part that holds."
  },
  {
   "property": "C74",
   "status": "partial",
   "theorems": [
    "Verif.GroupMap.C74_actual",
    "Verif.GroupMap.C74_actual_pure",
    "Verif.GroupMap.C74_false",
    "Verif.GroupMap.C74_partial"
   ],
   "note": "False of the code: retain_paired keeps what the closure rejects and leaves dangling ids in the groups. C74_full is the claim, C74_actual the exact behaviour for every closure, C74_partial the part that holds, C74_false the refutation."
  },
  {
   "property": "C75",
   "status": "partial",
   "theorems": [
    "Verif.GroupMap.C75_actual",
    "Verif.GroupMap.C75_actual_pure",
    "Verif.GroupMap.C75_false",
    "Verif.GroupMap.C75_partial"
   ],
   "note": "False of the code: retain_unpaired keeps what the closure rejects. C75_full is the claim, C75_actual the exact behaviour for every closure, C75_partial the claim for maps without lone right items, C75_false the refutation."
  },
  {
   "property": "C76",
   "status": "partial",
   "theorems": [
    "Verif.GroupMap.C76_actual",
    "Verif.GroupMap.C76_eq_partial",
    "Verif.GroupMap.C76_false",
    "Verif.GroupMap.C76_not_symmetric_false",
    "Verif.GroupMap.C76_refl"
   ],
   "note": "False of the code: the length check uses && and a missing right item counts as unpaired. C76_full is the claim, C76_false and C76_not_symmetric_false refute it, C76_actual is exactly what == computes, C76_eq_partial and C76_refl say when the answer is right."
  },
  {
   "property": "C77",
   "status": "proved",
   "theorems": [
    "Verif.GroupMap.C77_extend",
    "Verif.GroupMap.C77_extend_is_inserts",
    "Verif.GroupMap.C77_pairs",
    "Verif.GroupMap.C77_repeated_pair"
   ],
   "note": "C77_extend_is_inserts holds for every map and sequence, including panics. C77_extend spells the result out for sequences without already present pairs; C77_repeated_pair shows what a repeated pair does (a consequence of C62)."
  },
  {
   "property": "C78",
   "status": "proved",
   "theorems": [
    "Verif.GroupMap.C78_clear",
    "Verif.GroupMap.C78_len",
    "Verif.GroupMap.C78_new"
   ],
   "note": ""
  },
  {
   "property": "C79",
   "status": "partial",
   "theorems": [
    "Verif.GroupMap.C79_false",
    "Verif.GroupMap.C79_hash_independent_partial"
   ],
   "note": "False of the code because of swap_right (C66): C79_full is the claim, C79_false refutes it, C79_hash_independent_partial proves it for safe histories."
  },
  {
   "property": "C80",
   "status": "proved",
   "theorems": [
    "Verif.CycleMap.C80_drain_filter",
    "Verif.CycleMap.C80_retain"
   ],
   "note": "retain and drain_filter with closures that may panic at any call."
  },
  {
   "property": "C81",
   "status": "proved",
   "theorems": [
    "Verif.PartialMap.C81_clone_eq",
    "Verif.PartialMap.C81_clone_history",
    "Verif.PartialMap.C81_clone_history_eq"
   ],
   "note": ""
  },
  {
   "property": "C82",
   "status": "proved",
   "theorems": [
    "Verif.PartialMap.C82_borrowed_lookup"
   ],
   "note": ""
  },
  {
   "property": "C83",
   "status": "proved",
   "theorems": [
    "Verif.GroupMap.C83_clone_eq",
    "Verif.GroupMap.C83_clone_history",
    "Verif.GroupMap.C83_clone_history_eq"
   ],
   "note": ""
  },
  {
   "property": "C84",
   "status": "proved",
   "theorems": [
    "Verif.GroupMap.C84_borrowed_lookup"
   ],
   "note": ""
  },
  {
   "property": "C85",
   "status": "proved",
   "theorems": [
    "Verif.CycleMap.C85_hashes",
    "Verif.GroupMap.C85_hashes",
    "Verif.PartialMap.C85_hashes"
   ],
   "note": "One theorem per map. For GroupMap over every history of calls, also the breaking ones."
  },
  {
   "property": "C86",
   "status": "proved",
   "theorems": [
    "Verif.GroupMap.C86_ids",
    "Verif.GroupMap.C86_items"
   ],
   "note": "C86_items is the observable part, C86_ids the ids. iter_right may repeat an item (C66_duplicates)."
  },
  {
   "property": "C87",
   "status": "proved",
   "theorems": [
    "Verif.CycleMap.C87_len",
    "Verif.CycleMap.C87_room",
    "Verif.CycleMap.C87_with_capacity"
   ],
   "note": "Relies on the capacity contract LawfulCap. `puts` counts one per insert, swap and extended item."
  },
  {
   "property": "C88",
   "status": "proved",
   "theorems": [
    "Verif.CycleMap.C88_reserve",
    "Verif.CycleMap.C88_shrink"
   ],
   "note": "Relies on LawfulCap. \"Does nothing if the capacity is smaller\" is not claimed: hashbrown may still clean up tombstones."
  },
  {
   "property": "C89",
   "status": "partial",
   "theorems": [
    "Verif.CycleMap.C89_actual",
    "Verif.CycleMap.C89_false",
    "Verif.CycleMap.C89_partial"
   ],
   "note": "Documented, but false. C89_actual: a try_reserve whose second allocation fails, for every table implementation. C89_false: also without failing allocations, by tombstones. C89_partial: new maps have equal capacities."
  },
  {
   "property": "C90",
   "status": "proved",
   "theorems": [
    "Verif.PartialMap.C90_reserve",
    "Verif.PartialMap.C90_room",
    "Verif.PartialMap.C90_shrink",
    "Verif.PartialMap.C90_with_capacity"
   ],
   "note": "Relies on LawfulCap."
  },
  {
   "property": "C91",
   "status": "proved",
   "theorems": [
    "Verif.GroupMap.C91_room",
    "Verif.GroupMap.C91_with_capacity"
   ],
   "note": "Relies on LawfulCap. GroupMap has no reserve or shrink methods."
  },
  {
   "property": "C92",
   "status": "proved",
   "theorems": [
    "Verif.PartialMap.C92_drain_filter",
    "Verif.PartialMap.C92_retain",
    "Verif.PartialMap.C92_retain_paired",
    "Verif.PartialMap.C92_retain_unpaired"
   ],
   "note": "retain, retain_paired, retain_unpaired and drain_filter with closures that may panic at any call; the hypothesis of C92_drain_filter is the one of C54_partial (other closures tear pairs apart without any panic, see C54_false)."
  },
  {
   "property": "C93",
   "status": "proved",
   "theorems": [
    "Verif.GroupMap.C93_retain_paired",
    "Verif.GroupMap.C93_retain_unpaired"
   ],
   "note": "retain_paired and retain_unpaired with closures that may panic at any call; without a panic they behave as in C74_actual and C75_actual."
  },
  {
   "property": "C94",
   "status": "proved",
   "theorems": [
    "Verif.Swiss.C94_contract",
    "Verif.Swiss.C94_cycle_history",
    "Verif.Swiss.C94_cycle_tables",
    "Verif.Swiss.C94_cycle_tables_always",
    "Verif.Swiss.C94_group_history",
    "Verif.Swiss.C94_group_tables",
    "Verif.Swiss.C94_partial_history",
    "Verif.Swiss.C94_partial_tables"
   ],
   "note": "The table is written from the published design of hashbrown 0.12, which is not part of /repo; differences are listed at the top of Verif/Swiss/Table.lean (rehash_in_place by its result, mirrored control bytes by arithmetic modulo, no overflow). C94_cycle_tables_always and C94_group_tables cover every history, C94_partial_tables the reachable maps. It discharges the table contract: with it C94_*_history hold without assumptions on tables. Running the crate's tests on it (Verif/Tests/Swiss.lean) shows that the assertions of partial_cycle_map_tests.rs:652-653 (drain_filter keeps capacities) depend on the layout."
  },
  {
   "property": "C95",
   "status": "proved",
   "theorems": [
    "Verif.CycleMap.C95_ids",
    "Verif.CycleMap.C95_items",
    "Verif.PartialMap.C95_items"
   ],
   "note": "LawfulClones: clones made by the history use Clone implementations whose result equals the original. For GroupMap see C85 and C86."
  },
  {
   "property": "C96",
   "status": "proved",
   "theorems": [
    "Verif.CycleMap.C96_hasher",
    "Verif.GroupMap.C96_hasher",
    "Verif.PartialMap.C96_hasher"
   ],
   "note": "Follows from the same induction as C95/C86."
  },
  {
   "property": "C97",
   "status": "proved",
   "theorems": [
    "Verif.CycleMap.C97_clear",
    "Verif.GroupMap.C97_clear",
    "Verif.PartialMap.C97_clear"
   ],
   "note": "No hypothesis on the map that is cleared."
  },
  {
   "property": "C98",
   "status": "partial",
   "theorems": [
    "Verif.CycleMap.C98_false",
    "Verif.CycleMap.C98_partial",
    "Verif.CycleMap.C98_witness"
   ],
   "note": "False: drain resets the id counter while an early-dropped drain leaves right items behind with their old ids, so a re-inserted left item gets the id its former partner still carries (C98_false, C98_witness on the table with control bytes and 16-slot groups: get_right(&1) is 10 after insert(1, 30), and iter() yields (1, 10), while are_paired(1, 30)). C98_partial: true in every reachable map (no early-dropped drain) and after clear()."
  },
  {
   "property": "C99",
   "status": "proved",
   "theorems": [
    "Verif.CycleMap.C99_insert",
    "Verif.CycleMap.C99_remove",
    "Verif.GroupMap.C99_insert",
    "Verif.GroupMap.C99_remove",
    "Verif.PartialMap.C99_insert",
    "Verif.PartialMap.C99_remove"
   ],
   "note": "If the call panics (C21, C66, C67) nothing is claimed. In a GroupMap remove_right may leave an equal item behind (C66_duplicates)."
  },
  {
   "property": "C100",
   "status": "proved",
   "theorems": [
    "Verif.CycleMap.C100_debug"
   ],
   "note": ""
  },
  {
   "property": "C101",
   "status": "partial",
   "theorems": [
    "Verif.PartialMap.C101_actual",
    "Verif.PartialMap.C101_false",
    "Verif.PartialMap.C101_partial"
   ],
   "note": "False of the code: iter, and hence Debug, skips lone right items. C101_full/C101_false/C101_actual; C101_partial for maps without lone right items."
  },
  {
   "property": "C102",
   "status": "partial",
   "theorems": [
    "Verif.GroupMap.C102_actual",
    "Verif.GroupMap.C102_false",
    "Verif.GroupMap.C102_mid_group",
    "Verif.GroupMap.C102_partial"
   ],
   "note": "The map itself prints correctly; Debug of iter() prints a clone, which has forgotten the rest of the current group. C102_full/C102_false (C102_mid_group is the witness), C102_actual the exact output at every position, C102_partial what holds."
  },
  {
   "property": "C103",
   "status": "proved",
   "theorems": [
    "Verif.OptionalPair.C103_debug"
   ],
   "note": ""
  },
  {
   "property": "C104",
   "status": "partial",
   "theorems": [
    "Verif.CycleMap.C104_size_hint",
    "Verif.CycleMap.C104_start",
    "Verif.PartialMap.C104_actual",
    "Verif.PartialMap.C104_false",
    "Verif.PartialMap.C104_partial"
   ],
   "note": "CycleMap: proved for every state. PartialCycleMap: false, the bound counts left entries while lone (and, by C54, paired) right items are yielded too: C104_full/C104_false; C104_partial bounds the items with a left item, C104_actual gives the bound at the start."
  },
  {
   "property": "C105",
   "status": "proved",
   "theorems": [
    "Verif.CycleMap.C105_agrees",
    "Verif.CycleMap.C105_closures",
    "Verif.CycleMap.C105_effect",
    "Verif.CycleMap.C105_items"
   ],
   "note": "Unwinding model: Verif/Unwind.lean, Verif/CycleMap/Unwind*.lean. clear() heals such a map, see C97."
  },
  {
   "property": "C106",
   "status": "partial",
   "theorems": [
    "Verif.CycleMap.C106_false",
    "Verif.CycleMap.C106_partial",
    "Verif.CycleMap.C106_retain_partial",
    "Verif.CycleMap.C106_witness",
    "Verif.CycleMap.C106_witness_insert"
   ],
   "note": "False of the code: swap_left writes the new hash into the partner before the last probe of the left table, so an Eq panic there leaves a left item that no longer finds its partner (C106_witness); insert fills the left table before the right one may grow (C106_witness_insert). C106_full/C106_false. C106_partial: exact set of pairs left for every call that needs no growth, does not swap a present item, and does not move elements within a table; C106_retain_partial: retain removes nothing if interrupted."
  },
  {
   "property": "C107",
   "status": "proved",
   "theorems": [
    "Verif.CycleMap.C107_own_panic"
   ],
   "note": "That the panic can happen is C18."
  },
  {
   "property": "C108",
   "status": "proved",
   "theorems": [
    "Verif.GroupMap.C108_agrees",
    "Verif.GroupMap.C108_closures",
    "Verif.GroupMap.C108_effect",
    "Verif.GroupMap.C108_items"
   ],
   "note": "Unwinding model: Verif/Unwind.lean, Verif/GroupMap/Unwind*.lean. clear() heals such a map, see C97. Right items may be there twice without panics already (C66)."
  },
  {
   "property": "C109",
   "status": "partial",
   "theorems": [
    "Verif.GroupMap.C109_false",
    "Verif.GroupMap.C109_partial",
    "Verif.GroupMap.C109_retain_partial",
    "Verif.GroupMap.C109_witness",
    "Verif.GroupMap.C109_witness_insert",
    "Verif.GroupMap.C109_witness_insert_left",
    "Verif.GroupMap.C109_witness_pair",
    "Verif.GroupMap.C109_witness_remove_right"
   ],
   "note": "False of the code, five witnesses: swap_right empties the old group before it hashes the new item; insert_left lists the left item before remove_left runs (a retry then lists it in two groups); pair probes again after unlinking; remove_right collects a HashSet of left items while they are removed; insert fills the left table before the right one may grow and counts up last (ids in use twice). C109_full/C109_false. C109_partial: exact contents left for every call that needs no growth and outside those cases; C109_retain_partial: the retain calls remove nothing if interrupted."
  },
  {
   "property": "C110",
   "status": "proved",
   "theorems": [
    "Verif.PartialMap.C110_agrees",
    "Verif.PartialMap.C110_closures",
    "Verif.PartialMap.C110_insert",
    "Verif.PartialMap.C110_items",
    "Verif.PartialMap.C110_remove"
   ],
   "note": "Unwinding model: Verif/Unwind.lean, Verif/PartialMap/Unwind*.lean. clear() heals such a map, see C97."
  },
  {
   "property": "C111",
   "status": "partial",
   "theorems": [
    "Verif.PartialMap.C111_false",
    "Verif.PartialMap.C111_partial",
    "Verif.PartialMap.C111_retain_partial",
    "Verif.PartialMap.C111_witness",
    "Verif.PartialMap.C111_witness_insert"
   ],
   "note": "False of the code: swap_left of a paired item writes the new hash into the partner before the last probe of the left table (C111_witness); insert fills the left table before the right one may grow, leaving an item that can neither be removed nor inserted again (C111_witness_insert). C111_full/C111_false. C111_partial: exact set of entries left for every call that needs no growth, does not swap a paired item, and does not move elements within a table (pair, unpair, pair_forced, removals, retain: always); C111_retain_partial: the retain calls remove nothing if interrupted, on any map."
  },
  {
   "property": "C112",
   "status": "proved",
   "theorems": [
    "Verif.PartialMap.C112_own_panic"
   ],
   "note": "That the panics can happen is C49."
  },
  {
   "property": "C113",
   "status": "proved",
   "theorems": [
    "Verif.CycleMap.C113_forget"
   ],
   "note": "mem::forget modelled in Verif/CycleMap/Forget.lean: the iterator state is written back without its Drop."
  },
  {
   "property": "C114",
   "status": "partial",
   "theorems": [
    "Verif.PartialMap.C114_actual",
    "Verif.PartialMap.C114_false",
    "Verif.PartialMap.C114_partial"
   ],
   "note": "False of the code (C114_full/C114_false): once the left table is exhausted, paired right items are shown to the closure as SomeRight (see C54) and, if accepted, only their right half is removed. C114_partial: true when the closure accepts SomeRight(r) for no paired r. C114_actual: exact result for every closure."
  },
  {
   "property": "C115",
   "status": "partial",
   "theorems": [
    "Verif.CycleMap.C115_actual",
    "Verif.CycleMap.C115_false",
    "Verif.CycleMap.C115_partial",
    "Verif.CycleMap.C115_witness",
    "Verif.PartialMap.C115_actual",
    "Verif.PartialMap.C115_false",
    "Verif.PartialMap.C115_partial"
   ],
   "note": "False of the code for both maps (C115_full/C115_false, C115_actual gives the exact state): drain empties the left table at once and the right items one by one, so a leaked drain leaves right items whose partners are gone; in CycleMap the restarted ids can even join a new left item to an old right item (C115_witness). C115_partial: true if every pair was taken (CycleMap: every entry), or there was no pair (PartialCycleMap)."
  },
  {
   "property": "C116",
   "status": "proved",
   "theorems": [
    "Verif.CycleMap.C116_entries_differ",
    "Verif.CycleMap.C116_entry_eq",
    "Verif.CycleMap.C116_entry_item",
    "Verif.GroupMap.C116_entries_differ",
    "Verif.GroupMap.C116_entry_item",
    "Verif.GroupMap.C116_left_entry_eq",
    "Verif.GroupMap.C116_right_entry_eq",
    "Verif.PartialMap.C116_entries_differ",
    "Verif.PartialMap.C116_entry_eq",
    "Verif.PartialMap.C116_entry_item"
   ],
   "note": "These impls are required by the bounds of the tables but the crate searches with closures; the theorems tie both together."
  },
  {
   "property": "C117",
   "status": "proved",
   "theorems": [
    "Verif.CycleMap.C117_memory",
    "Verif.GroupMap.C117_memory",
    "Verif.PartialMap.C117_memory"
   ],
   "note": "Contract LawfulMem (Verif/Memory.lean) is what hashbrown promises about growth; swissRaw_mem proves it of the concrete table. The pair sets inside GroupMap's right items are not counted."
  },
  {
   "property": "C118",
   "status": "partial",
   "theorems": [
    "Verif.CycleMap.C118_actual",
    "Verif.CycleMap.C118_false",
    "Verif.CycleMap.C118_partial"
   ],
   "note": "False of the code (C118_full/C118_false, for every table with a lawful capacity): visit_seq trusts size_hint (C118_actual: capacity for any announced length even if nothing follows). C118_partial: true with capacity at most 4*len+3 if the hint is absent or does not exceed the number of elements."
  },
  {
   "property": "C119",
   "status": "proved",
   "theorems": [
    "Verif.CycleMap.C119_serialize_fallible"
   ],
   "note": "Serializer modelled as Sink (start, element, finish), each of which may fail."
  },
  {
   "property": "C120",
   "status": "proved",
   "theorems": [
    "Verif.CycleMap.C120_drain_filter",
    "Verif.PartialMap.C120_drain_filter"
   ],
   "note": "Destructors that panic: Verif/Drops.lean and Verif/*/Drops.lean. For closures that accept SomeRight(r) of a paired r see C54."
  },
  {
   "property": "C121",
   "status": "proved",
   "theorems": [
    "Verif.CycleMap.C121_extend",
    "Verif.CycleMap.C121_retain",
    "Verif.GroupMap.C121_extend",
    "Verif.GroupMap.C121_retain_unpaired",
    "Verif.PartialMap.C121_extend",
    "Verif.PartialMap.C121_retain",
    "Verif.PartialMap.C121_retain_paired",
    "Verif.PartialMap.C121_retain_unpaired"
   ],
   "note": "GroupMap: retain_paired breaks the map even without panics (C75) and is not covered; inserting a stored pair see C62/C74."
  },
  {
   "property": "C122",
   "status": "partial",
   "theorems": [
    "Verif.CycleMap.C122_actual",
    "Verif.CycleMap.C122_false",
    "Verif.CycleMap.C122_partial",
    "Verif.GroupMap.C122_actual",
    "Verif.GroupMap.C122_false",
    "Verif.GroupMap.C122_partial",
    "Verif.PartialMap.C122_actual",
    "Verif.PartialMap.C122_false",
    "Verif.PartialMap.C122_partial"
   ],
   "note": "False of the code for all three maps (C122_full/C122_false): clear empties the left table, then the right one; if a left item's destructor panics the right table is not touched (C122_actual: the exact state; formerly paired right items have no partner, and removing them with their partner panics). C122_partial: true if no destructor of a left item panics."
  },
  {
   "property": "C123",
   "status": "proved",
   "theorems": [
    "Verif.CycleMap.C123_call",
    "Verif.CycleMap.C123_history",
    "Verif.CycleMap.C123_keeps",
    "Verif.GroupMap.C123_call",
    "Verif.GroupMap.C123_history",
    "Verif.GroupMap.C123_keeps",
    "Verif.PartialMap.C123_call",
    "Verif.PartialMap.C123_history",
    "Verif.PartialMap.C123_keeps"
   ],
   "note": "takes, hands and Drops (Verif/*/Ledger.lean) say for each call which items it takes, returns and drops. Drops is an exact list for all calls except drain_filter, the retain family, extend and drain of PartialCycleMap, where the permutation itself fixes what was dropped (what is in no other place). C123_keeps: calls after which nothing is dropped. clone makes new items and is left out (C33, C81, C83)."
  },
  {
   "property": "C124",
   "status": "proved",
   "theorems": [
    "Verif.CycleMap.C124_calls",
    "Verif.CycleMap.C124_drop",
    "Verif.PartialMap.C124_calls",
    "Verif.PartialMap.C124_drop"
   ],
   "note": "none is undefined behaviour in Verif/Buckets.lean; the theorems say the result is some for every input. The examples show runs where it is none (an iterator that repeats a bucket; PartialCycleMap without the reset flag). A RawIter is modelled as the list of buckets full when it was made, so a bucket emptied since is yielded, the worst case."
  },
  {
   "property": "C125",
   "status": "proved",
   "theorems": [
    "Verif.CycleMap.C125_drain_filter",
    "Verif.PartialMap.C125_drain_filter",
    "Verif.Swiss.C125_stable",
    "Verif.Swiss.C125_swiss_cycleMap",
    "Verif.Swiss.C125_swiss_partialMap"
   ],
   "note": "C125_swiss_cycleMap and C125_swiss_partialMap are about the concrete table (swissRaw) and assume nothing about tables. In general, for PartialCycleMap the list model must keep the order of a table when elements are erased (StableErase, proved of swissRaw in C125_stable; tidyRaw has it, too), as buckets do: the right table is iterated after elements were taken out of it. For CycleMap no such assumption."
  },
  {
   "property": "C126",
   "status": "proved",
   "theorems": [
    "Verif.CycleMap.C126_pretty",
    "Verif.GroupMap.C126_pretty",
    "Verif.PartialMap.C126_pretty"
   ],
   "note": "The builders of core::fmt (DebugSet, DebugTuple, DebugList, PadAdapter) are modelled by what they print. The items' own {:#?} text is a parameter."
  },
  {
   "property": "C127",
   "status": "proved",
   "theorems": [
    "Verif.CycleMap.C127_panics",
    "Verif.GroupMap.C127_extend",
    "Verif.GroupMap.C127_panics",
    "Verif.PartialMap.C127_panics"
   ],
   "note": "For CycleMap and PartialCycleMap an equivalence over every call. For GroupMap: no call but extend panics (C127_panics), extend does not if its pairs are new, and C127_extend shows it may otherwise. Calls that leave a map that is not valid (C21, C62, C66, C67, C79) return; what later calls on such maps do is in those properties."
  },
  {
   "property": "C128",
   "status": "proved",
   "theorems": [
    "Verif.C128_single",
    "Verif.CycleMap.C128_drain",
    "Verif.CycleMap.C128_drainFilter",
    "Verif.CycleMap.C128_iter",
    "Verif.GroupMap.C128_iter",
    "Verif.GroupMap.C128_iterPaired",
    "Verif.GroupMap.C128_iterUnpaired",
    "Verif.GroupMap.C128_pairIter",
    "Verif.PartialMap.C128_drain",
    "Verif.PartialMap.C128_drainFilter",
    "Verif.PartialMap.C128_iter",
    "Verif.PartialMap.C128_iterPaired",
    "Verif.PartialMap.C128_iterUnpaired"
   ],
   "note": "Verif/Fused.lean adds to each model iterator the state next leaves, also when it panics. PairedIter of PartialCycleMap skips items whose partner cannot be found, so it needs the hashes stored in the left table to be the right ones, which C95/C96 give for every history."
  },
  {
   "property": "C129",
   "status": "proved",
   "theorems": [
    "Verif.Twin.C129_call",
    "Verif.Twin.C129_history",
    "Verif.Twin.C129_new",
    "Verif.Twin.C129_observers",
    "Verif.Twin.C129_swapLeftOrInsert",
    "Verif.Twin.C129_swapRightOrInsert"
   ],
   "note": "Both maps are simulated by list machines (C01ff.); the theorem relates the two machines by mapping a pair (l, r) to the entry someBoth l r. keep is retain of CycleMap and retain_paired with the negated closure of PartialCycleMap (C55). Not covered: drain and drain_filter (C21, C53, C54), capacity calls."
  },
  {
   "property": "C130",
   "status": "proved",
   "theorems": [
    "Verif.CycleMap.C130_insert",
    "Verif.CycleMap.C130_remove",
    "Verif.CycleMap.C130_removeViaLeft",
    "Verif.CycleMap.C130_removeViaRight",
    "Verif.CycleMap.C130_swapLeft",
    "Verif.CycleMap.C130_swapRight",
    "Verif.GroupMap.C130_insertLeft",
    "Verif.GroupMap.C130_insertLeft_new",
    "Verif.GroupMap.C130_insertRight",
    "Verif.GroupMap.C130_pair",
    "Verif.GroupMap.C130_remove",
    "Verif.GroupMap.C130_removeLeft",
    "Verif.GroupMap.C130_removeRight",
    "Verif.PartialMap.C130_insert",
    "Verif.PartialMap.C130_insertLeft",
    "Verif.PartialMap.C130_insertRight",
    "Verif.PartialMap.C130_pair",
    "Verif.PartialMap.C130_pairForced",
    "Verif.PartialMap.C130_pairForcedRemove",
    "Verif.PartialMap.C130_remove",
    "Verif.PartialMap.C130_removeViaLeft",
    "Verif.PartialMap.C130_removeViaRight",
    "Verif.PartialMap.C130_swapLeft",
    "Verif.PartialMap.C130_swapRight",
    "Verif.PartialMap.C130_unpair"
   ],
   "note": "Restores Shows m c with exactly the c before the call. Order of iteration and capacity are not restored."
  },
  {
   "property": "C131",
   "status": "proved",
   "theorems": [
    "Verif.CycleMap.C131_drain",
    "Verif.GroupMap.C131_retain_paired",
    "Verif.PartialMap.C131_calm",
    "Verif.PartialMap.C131_drain",
    "Verif.PartialMap.C131_once"
   ],
   "note": "Models: Verif/DropEnd.lean. Whether the item a panicking next was about to return is dropped or leaked depends on the compiler; both are covered (leak)."
  },
  {
   "property": "C132",
   "status": "proved",
   "theorems": [
    "Verif.CycleMap.C132_all",
    "Verif.CycleMap.C132_drop",
    "Verif.GroupMap.C132_all",
    "Verif.GroupMap.C132_drop",
    "Verif.PartialMap.C132_all",
    "Verif.PartialMap.C132_drop"
   ],
   "note": "Models: Verif/DropEnd.lean (no map has a Drop of its own: fields in order of declaration; hashbrown drops the elements of a table until a destructor panics)."
  },
  {
   "property": "C133",
   "status": "proved",
   "theorems": [
    "Verif.CycleMap.C133_clear",
    "Verif.CycleMap.C133_drain",
    "Verif.CycleMap.C133_swap",
    "Verif.CycleMap.C133_swap_left_or_insert",
    "Verif.CycleMap.C133_swap_right_or_insert"
   ],
   "note": "About changed code: Verif/CycleMap/Repair.lean, which is not in /repo; every definition there names the lines it changes. The code as it is: C13, C15, C17, C18, C21, C122. Where two displaced pairs do not fit into the return type, one item is still lost."
  },
  {
   "property": "C134",
   "status": "proved",
   "theorems": [
    "Verif.PartialMap.C134_clear",
    "Verif.PartialMap.C134_drain",
    "Verif.PartialMap.C134_drain_filter",
    "Verif.PartialMap.C134_eq",
    "Verif.PartialMap.C134_iter",
    "Verif.PartialMap.C134_retain",
    "Verif.PartialMap.C134_size_hint",
    "Verif.PartialMap.C134_sizes",
    "Verif.PartialMap.C134_swap",
    "Verif.PartialMap.C134_swap_left_or_insert",
    "Verif.PartialMap.C134_swap_right_or_insert",
    "Verif.PartialMap.C134_unpair"
   ],
   "note": "About changed code: Verif/PartialMap/Repair.lean, which is not in /repo; every definition there names the lines it changes. The code as it is: C41, C47, C49, C50, C52, C53, C54, C55, C56, C104, C122."
  },
  {
   "property": "C135",
   "status": "proved",
   "theorems": [
    "Verif.GroupMap.C135_clear",
    "Verif.GroupMap.C135_eq",
    "Verif.GroupMap.C135_insert",
    "Verif.GroupMap.C135_retain_paired",
    "Verif.GroupMap.C135_retain_unpaired",
    "Verif.GroupMap.C135_sizes",
    "Verif.GroupMap.C135_swap_right",
    "Verif.GroupMap.C135_swap_right_remove"
   ],
   "note": "About changed code: Verif/GroupMap/Repair.lean, which is not in /repo; every definition there names the lines it changes. The code as it is: C62, C66, C67, C73, C74, C75, C76, C122. With new present and different from old, the documentation of swap_right leaves open what happens to the items of new; here they go, as with insert_right."
  },
  {
   "property": "C136",
   "status": "proved",
   "theorems": [
    "Verif.C136_contract",
    "Verif.CycleMap.C136_any",
    "Verif.CycleMap.C136_history",
    "Verif.CycleMap.C136_single"
   ],
   "note": "Amortised, with a potential (debt). Counted are the hashings of keys, the probes by key (one each, however many elements the probe compares) and the hashings of growing tables; clone counts one, and the HashSet made by GroupMap::remove_right is one that has room from the start. execU equals the main model when it is not interrupted (C105, C108, C110). LawfulAmort, the contract of growing, is proved of the Swiss table (C136_contract)."
  },
  {
   "property": "C137",
   "status": "proved",
   "theorems": [
    "Verif.PartialMap.C137_any",
    "Verif.PartialMap.C137_history",
    "Verif.PartialMap.C137_single"
   ],
   "note": "As C136. Counted are the hashings of keys, the probes by key (one each, however many elements the probe compares) and the hashings of growing tables; clone counts one, and the HashSet made by GroupMap::remove_right is one that has room from the start. execU equals the main model when it is not interrupted (C105, C108, C110). LawfulAmort, the contract of growing, is proved of the Swiss table (C136_contract)."
  },
  {
   "property": "C138",
   "status": "proved",
   "theorems": [
    "Verif.GroupMap.C138_any",
    "Verif.GroupMap.C138_history",
    "Verif.GroupMap.C138_single"
   ],
   "note": "As C136; every left item saves up for its own removal with its group. Counted are the hashings of keys, the probes by key (one each, however many elements the probe compares) and the hashings of growing tables; clone counts one, and the HashSet made by GroupMap::remove_right is one that has room from the start. execU equals the main model when it is not interrupted (C105, C108, C110). LawfulAmort, the contract of growing, is proved of the Swiss table (C136_contract)."
  },
  {
   "property": "C139",
   "status": "proved",
   "theorems": [
    "Verif.CycleMap.C139_history",
    "Verif.CycleMap.C139_history_ok",
    "Verif.CycleMap.C139_iter_panics",
    "Verif.CycleMap.C139_lawful",
    "Verif.CycleMap.C139_wrong_partner"
   ],
   "note": "No EquivBEq anywhere in C139_history, C139_history_ok and C139_iter_panics; BuildHasher still asks that == items have equal hashes. C139_lawful: where == is an equivalence, the looser specification says the same as the one of C05. Trait == and Debug of the map are not among the calls of this machine."
  },
  {
   "property": "C140",
   "status": "partial",
   "theorems": [
    "Verif.C140_actual_cycle",
    "Verif.C140_actual_partial",
    "Verif.C140_cycle_partial",
    "Verif.C140_false",
    "Verif.C140_partial"
   ],
   "note": "Two of the thirteen notes are false. CycleMap::swap_right_or_insert returns SomeRight exactly if old and the left item are missing and new is there (C140_actual_cycle); PartialCycleMap::insert_left returns SomeLeft exactly if an equal item is there without a partner (C140_actual_partial), as the doc example right below the note says itself. The other eleven hold of every map in any state."
  },
  {
   "property": "C141",
   "status": "proved",
   "theorems": [
    "Verif.CycleMap.C141_cycle_order",
    "Verif.CycleMap.C141_cycle_rebuild",
    "Verif.GroupMap.C141_group_rebuild",
    "Verif.PartialMap.C141_partial_order",
    "Verif.PartialMap.C141_partial_rebuild"
   ],
   "note": "PartialCycleMap::iter alone leaves out lone right items (C50), so its rebuild uses iter_paired and iter_unpaired. GroupMap: the rebuild only; inserting a stored pair breaks a GroupMap (C62), which a rebuild from iter never does."
  },
  {
   "property": "C142",
   "status": "proved",
   "theorems": [
    "Verif.PartialMap.C142_history",
    "Verif.PartialMap.C142_history_ok",
    "Verif.PartialMap.C142_lawful",
    "Verif.PartialMap.C142_lawful_sane",
    "Verif.PartialMap.C142_retain_paired_tears",
    "Verif.PartialMap.C142_retain_panics",
    "Verif.PartialMap.C142_retain_unpaired_tears"
   ],
   "note": "No EquivBEq in C142_history, C142_history_ok and C142_retain_panics; BuildHasher still asks that == items have equal hashes. The calls left out are those of PartialWeak.Sane, each with a witness that it can tear a pair (C41_false, C54_false, C142_retain_unpaired_tears, C142_retain_paired_tears). C142_lawful and C142_lawful_sane: where == is an equivalence the looser specification says the same as the one of the other properties, and retain_paired and retain_unpaired are covered."
  },
  {
   "property": "C143",
   "status": "proved",
   "theorems": [
    "Verif.GroupMap.C143_history",
    "Verif.GroupMap.C143_history_ok",
    "Verif.GroupMap.C143_lawful",
    "Verif.GroupMap.C143_lawful_sane",
    "Verif.GroupMap.C143_retain_panics",
    "Verif.GroupMap.C143_retain_unpaired_drops_group"
   ],
   "note": "No EquivBEq in C143_history, C143_history_ok and C143_retain_panics; BuildHasher still asks that == items have equal hashes. The calls left out are those of GroupWeak.Sane. C143_lawful and C143_lawful_sane: where == is an equivalence the looser specification says the same as the one of the other properties, pair is always covered, and retain_unpaired drops just the accepted items."
  },
  {
   "property": "C144",
   "status": "proved",
   "theorems": [
    "Verif.CycleMap.C144_drain",
    "Verif.CycleMap.C144_drain_forget",
    "Verif.CycleMap.C144_swap_left",
    "Verif.CycleMap.C144_swap_left_or_insert",
    "Verif.CycleMap.C144_swap_right",
    "Verif.CycleMap.C144_swap_right_or_insert",
    "Verif.GroupMap.C144_insert",
    "Verif.GroupMap.C144_retain_paired",
    "Verif.GroupMap.C144_retain_unpaired",
    "Verif.GroupMap.C144_sizes",
    "Verif.GroupMap.C144_swap_right",
    "Verif.GroupMap.C144_swap_right_remove",
    "Verif.PartialMap.C144_drain",
    "Verif.PartialMap.C144_drain_filter",
    "Verif.PartialMap.C144_iter",
    "Verif.PartialMap.C144_retain",
    "Verif.PartialMap.C144_sizes",
    "Verif.PartialMap.C144_swap",
    "Verif.PartialMap.C144_swap_or_insert",
    "Verif.PartialMap.C144_unpair"
   ],
   "note": "Turns the conditions of C13, C15, C17, C18, C21, C41, C47, C49, C50, C52-C55, C62, C66, C67, C73-C75 and C115 (drain of CycleMap) into equivalences. C55, C74 and C75 are exact in a different sense: their conditions say when the inverted closure makes no difference. Closures are without side effects here; for closures with state see the _actual theorems."
  },
  {
   "property": "C145",
   "status": "proved",
   "theorems": [
    "Verif.CycleMap.C145_cycle_commute",
    "Verif.CycleMap.C145_cycle_frame",
    "Verif.GroupMap.C145_group_commute",
    "Verif.GroupMap.C145_group_frame",
    "Verif.PartialMap.C145_partial_commute",
    "Verif.PartialMap.C145_partial_frame"
   ],
   "note": "A frame rule and, from it, commutation. `Local` names the calls (not those that visit the whole map), `lefts`/`rights` the items given to a call, `Apart` that none of them is an item of the further entries. CycleMap and PartialCycleMap include the panics of swap_..._or_insert (C18, C49). `Lucky` (PartialCycleMap) excludes the collision of C41; `SafeRun` (GroupMap) excludes C62, C66, C67."
  },
  {
   "property": "C146",
   "status": "proved",
   "theorems": [
    "Verif.CycleMap.C146_parametric",
    "Verif.GroupMap.C146_parametric",
    "Verif.PartialMap.C146_parametric"
   ],
   "note": "`Keeps` says that a relation preserves and reflects ==, `RelOp`/`RelOut` that calls/results correspond, `Matches` that lists correspond in some order. Closures answer alike whatever their states; drain_filter with a given number of next is left out (the pairs taken depend on the order of visits), for CycleMap drain_filter in a for loop is in. The clone part is C33/C81/C83_clone_history_eq."
  },
  {
   "property": "C147",
   "status": "proved",
   "theorems": [
    "Verif.CycleMap.C147_exact",
    "Verif.CycleMap.C147_mirror",
    "Verif.PartialMap.C147_exact",
    "Verif.PartialMap.C147_mirror"
   ],
   "note": "Closures whose answers depend on the order of visits are left out (OrderFree), as in C28 and C59; calls of PartialCycleMap are to be safe from both sides. GroupMap is not symmetric by design."
  },
  {
   "property": "C148",
   "status": "proved",
   "theorems": [
    "Verif.CycleMap.C148_documented",
    "Verif.CycleMap.C148_hash_independent",
    "Verif.CycleMap.C148_usable",
    "Verif.GroupMap.C148_documented",
    "Verif.GroupMap.C148_hash_independent",
    "Verif.GroupMap.C148_usable",
    "Verif.PartialMap.C148_documented",
    "Verif.PartialMap.C148_hash_independent",
    "Verif.PartialMap.C148_usable"
   ],
   "note": "`Repair.exec` is the API with the repaired calls, `Repair.Step` what is documented; the one is not defined by the other. The iterator types that are not calls of the machine (len, size_hint, dropping in the middle) are in C133-C135. For hash independence closures answer by their argument alone, and drain and drain_filter are run without asking for pairs (which ones come first depends on the table)."
  },
  {
   "property": "C149",
   "status": "proved",
   "theorems": [
    "Verif.CycleMap.C149_drain",
    "Verif.CycleMap.C149_extend",
    "Verif.CycleMap.C149_insert",
    "Verif.CycleMap.C149_remove",
    "Verif.CycleMap.C149_retain_drainFilter",
    "Verif.CycleMap.C149_retain_retain",
    "Verif.CycleMap.C149_swapLeft",
    "Verif.CycleMap.C149_swapRight",
    "Verif.CycleMap.C149_swap_swap",
    "Verif.GroupMap.C149_extend",
    "Verif.GroupMap.C149_extendOpt",
    "Verif.GroupMap.C149_insert",
    "Verif.GroupMap.C149_insertRemove",
    "Verif.GroupMap.C149_insertRight",
    "Verif.GroupMap.C149_pair",
    "Verif.GroupMap.C149_removeRight",
    "Verif.PartialMap.C149_extend",
    "Verif.PartialMap.C149_extendPairs",
    "Verif.PartialMap.C149_insert",
    "Verif.PartialMap.C149_pairForced",
    "Verif.PartialMap.C149_pairForcedRemove",
    "Verif.PartialMap.C149_remove",
    "Verif.PartialMap.C149_removeViaLeft",
    "Verif.PartialMap.C149_removeViaRight",
    "Verif.PartialMap.C149_retain",
    "Verif.PartialMap.C149_swapLeft",
    "Verif.PartialMap.C149_swapRight"
   ],
   "note": "The conditions on GroupMap::insert (the pair is not there yet, C62) and on retain of PartialCycleMap (lone right items are out of its reach, C50) are those of the crate. swap_* of an absent item is C13/C47."
  },
  {
   "property": "C150",
   "status": "proved",
   "theorems": [
    "Verif.CycleMap.C150_exact",
    "Verif.CycleMap.C150_history",
    "Verif.CycleMap.C150_repair",
    "Verif.GroupMap.C150_exact",
    "Verif.GroupMap.C150_from_iter",
    "Verif.GroupMap.C150_from_pairs",
    "Verif.GroupMap.C150_history",
    "Verif.GroupMap.C150_repair",
    "Verif.PartialMap.C150_exact",
    "Verif.PartialMap.C150_history",
    "Verif.PartialMap.C150_repair"
   ],
   "note": "`Right` is the list, `Repair.Step` what is documented (C148). The equivalence is for closures that answer by their argument alone and for `Clone`s that give equal items. For extend of GroupMap the condition (`Mends`) follows the sequence pair by pair: a pair inserted a second time breaks the map, a later pair of the same call may mend it. Iterator types that are not calls of the machine are not part of it."
  },
  {
   "property": "C151",
   "status": "proved",
   "theorems": [
    "Verif.CycleMap.C151_order",
    "Verif.CycleMap.C151_right_order",
    "Verif.GroupMap.C151_order",
    "Verif.PartialMap.C151_order"
   ],
   "note": "A map is visited in the order of its table, which the contract leaves open; what is proved is which calls use the same order, with a closure that writes down what it is called on (`logging`). That two iterations over an unchanged hashbrown table, and over its clone, go through the buckets in the same order is part of the contract (DESIGN.md). In which order drain_filter of PartialCycleMap goes through the right items in its second pass is left open, since removals lie between."
  },
  {
   "property": "C152",
   "status": "proved",
   "theorems": [
    "Verif.CycleMap.C152_agrees",
    "Verif.CycleMap.C152_interrupted",
    "Verif.CycleMap.C152_own_panic",
    "Verif.CycleMap.C152_works"
   ],
   "note": "The changed calls are in Verif/CycleMap/Sturdy.lean and are not in /repo; each names the lines it changes. `Lived` are the maps after any history with caught panics; a drain must be run to its end and Clone must give equal items, as for `Reachable`. An abort (panic while panicking) ends the history. That the stored hash is the one Hash gives is C85."
  },
  {
   "property": "C153",
   "status": "proved",
   "theorems": [
    "Verif.GroupMap.C153_agrees",
    "Verif.GroupMap.C153_history",
    "Verif.GroupMap.C153_interrupted",
    "Verif.GroupMap.C153_no_panic",
    "Verif.GroupMap.C153_serves"
   ],
   "note": "The changed calls are in Verif/GroupMap/Sturdy.lean and are not in /repo; each names the lines it changes. `Lived` are the maps after any history with caught panics; Clone must give equal items. `LeavesCall` lists, call by call, what an interrupted call may leave; `Serves` says that every further history of calls (without panics) does what is documented."
  },
  {
   "property": "C154",
   "status": "proved",
   "theorems": [
    "Verif.PartialMap.C154_agrees",
    "Verif.PartialMap.C154_history",
    "Verif.PartialMap.C154_interrupted",
    "Verif.PartialMap.C154_no_panic",
    "Verif.PartialMap.C154_serves"
   ],
   "note": "The changed calls are in Verif/PartialMap/Sturdy.lean and are not in /repo; each names the lines it changes. `Lived` are the maps after any history with caught panics; Clone must give equal items, and the closure of drain_filter must not panic (C92 and C111 say what happens in the crate if it does). `LeavesCall` lists, call by call, what an interrupted call may leave; `Serves` says that every further history of calls (without panics) does what is documented."
  },
  {
   "property": "C155",
   "status": "proved",
   "theorems": [
    "Verif.PartialMap.C155_agrees",
    "Verif.PartialMap.C155_drain_filter",
    "Verif.PartialMap.C155_serves"
   ],
   "note": "The changed drain_filter is in Verif/PartialMap/RepairPanics.lean and is not in /repo: it is the one of C92 with the new first line of C134. It runs no Hash and no Eq, so the closure is the only code that can panic in it. The closure is wrapped so that it notes down what it is asked about, hence `v` is what was asked, in order. `Survived` are the maps of C154 with these calls added; after an abort there is no map. C155_agrees compares the iterators, not the two versions of the whole call."
  }
 ]
}