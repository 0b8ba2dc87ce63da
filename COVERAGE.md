# Rust functions and their Lean counterparts

Every `fn` in `/repo/src`, in file order, with the Lean definitions whose doc comment cites its lines (namespace `Verif` omitted).
`Always`, `Closed`, `Panics`, … variants of a function appear beside it.

## src/cycle_map.rs

| line | function | Lean |
|---|---|---|
| 30 | `equivalent_key` | `CycleMap.equivalentKey` |
| 34 | `hash_and_id` | `CycleMap.hashAndId` |
| 38 | `just_id` | `CycleMap.justId` |
| 105 | `new` | `CycleMap.withHasher` |
| 117 | `with_capacity` | `CycleMap.withCapacityAndHasher` |
| 155 | `insert` | `CycleMap.Sturdy.insertU`, `CycleMap.insert`, `CycleMap.insertU` |
| 198 | `are_paired` | `CycleMap.arePaired`, `CycleMap.arePairedU` |
| 222 | `contains_left` | `CycleMap.containsLeft` |
| 238 | `contains_right` | `CycleMap.containsRight` |
| 254 | `remove` | `CycleMap.remove`, `CycleMap.removeU` |
| 274 | `remove_via_left` | `CycleMap.removeViaLeft`, `CycleMap.removeViaLeftU` |
| 297 | `remove_via_right` | `CycleMap.removeViaRight`, `CycleMap.removeViaRightU` |
| 309 | `remove_via_hashes_and_id` | `CycleMap.removeViaHashesAndId`, `CycleMap.removeViaHashesAndIdU` |
| 350 | `swap_left` | `CycleMap.Sturdy.swapLeftU`, `CycleMap.swapLeft`, `CycleMap.swapLeftU` |
| 414 | `swap_left_checked` | `CycleMap.Sturdy.swapLeftCheckedU`, `CycleMap.swapLeftChecked`, `CycleMap.swapLeftCheckedU` |
| 442 | `swap_left_or_insert` | `CycleMap.Sturdy.swapLeftOrInsertU`, `CycleMap.swapLeftOrInsert`, `CycleMap.swapLeftOrInsertU` |
| 459 | `swap_left_eq_check` | `CycleMap.swapLeftEqCheck`, `CycleMap.swapLeftEqCheckU` |
| 500 | `swap_right` | `CycleMap.Sturdy.swapRightU`, `CycleMap.swapRight`, `CycleMap.swapRightU` |
| 565 | `swap_right_checked` | `CycleMap.Sturdy.swapRightCheckedU`, `CycleMap.swapRightChecked`, `CycleMap.swapRightCheckedU` |
| 595 | `swap_right_or_insert` | `CycleMap.Sturdy.swapRightOrInsertU`, `CycleMap.swapRightOrInsert`, `CycleMap.swapRightOrInsertU` |
| 622 | `swap_right_eq_check` | `CycleMap.swapRightEqCheck`, `CycleMap.swapRightEqCheckU` |
| 643 | `get_left` | `CycleMap.getLeftBy` |
| 669 | `get_right` | `CycleMap.getRightBy`, `CycleMap.nextU` |
| 687 | `get_via_hashes_and_id` | — commented out in the source |
| 695 | `get_left_inner` | `CycleMap.getLeftInner` |
| 701 | `get_left_inner_with_hash` | `CycleMap.getRightBy` |
| 710 | `get_right_inner_with_hash` | `CycleMap.getLeftBy` |
| 730 | `iter` | `CycleMap.collectU`, `CycleMap.iter` |
| 749 | `iter_left` | `CycleMap.iterLeft` |
| 768 | `iter_right` | `CycleMap.iterRight` |
| 796 | `drain` | `CycleMap.drain`, `CycleMap.drainForget`, `CycleMap.drainU` |
| 830 | `drain_filter` | `CycleMap.DrainFilterB.start`, `CycleMap.drainFilterForget`, `CycleMap.drainFilterTake`, `CycleMap.drainFilterU` |
| 861 | `retain` | `CycleMap.retain`, `CycleMap.retainD`, `CycleMap.retainP`, `CycleMap.retainU` |
| 900 | `shrink_to` | `CycleMap.Sturdy.execU`, `CycleMap.shrinkTo`, `CycleMap.shrinkToTwiceU` |
| 922 | `shrink_to_fit` | `CycleMap.Sturdy.execU`, `CycleMap.shrinkToFit`, `CycleMap.shrinkToFitU` |
| 941 | `reserve` | `CycleMap.Sturdy.execU`, `CycleMap.reserve`, `CycleMap.reserveTwiceU` |
| 960 | `try_reserve` | `CycleMap.Sturdy.execU`, `CycleMap.tryReserve`, `CycleMap.tryReserveU` |
| 988 | `with_hasher` | `CycleMap.withHasher` |
| 1018 | `with_capacity_and_hasher` | `CycleMap.withCapacityAndHasher` |
| 1028 | `hasher` | `CycleMap.hasher` |
| 1042 | `capacity` | `CycleMap.capacity` |
| 1060 | `len` | `CycleMap.len` |
| 1077 | `is_empty` | `CycleMap.isEmpty` |
| 1094 | `clear` | `CycleMap.clear`, `CycleMap.clearD` |
| 1106 | `clone` (Clone for CycleMap) | `CycleMap.clone` |
| 1120 | `default` (Default for CycleMap) | `CycleMap.withHasher` |
| 1131 | `fmt` (fmt::Debug for CycleMap) | `CycleMap.debug` |
| 1142 | `eq` (PartialEq for CycleMap) | `CycleMap.eq` |
| 1165 | `extend` (Extend for CycleMap) | `CycleMap.Sturdy.extendU`, `CycleMap.extend`, `CycleMap.extendD`, `CycleMap.extendU` |
| 1177 | `from_iter` (FromIterator for CycleMap) | `CycleMap.fromIter` |
| 1191 | `clone` (Clone for Iter) | `CycleMap.Iter.clone` |
| 1205 | `fmt` (fmt::Debug for Iter) | `CycleMap.Iter.debug` |
| 1218 | `next` (Iterator for Iter) | `CycleMap.Iter.next`, `CycleMap.nextU` |
| 1228 | `size_hint` (Iterator for Iter) | `CycleMap.Iter.len` |
| 1239 | `len` (ExactSizeIterator for Iter) | `CycleMap.Iter.len` |
| 1259 | `clone` (Clone for SingleIter) | `CycleMap.iterLeft` |
| 1271 | `fmt` (fmt::Debug for SingleIter) | `CycleMap.debugLeftIter`, `CycleMap.debugRightIter`, `CycleMap.iterLeft` |
| 1282 | `next` (Iterator for SingleIter) | `CycleMap.iterLeft` |
| 1291 | `size_hint` (Iterator for SingleIter) | `CycleMap.iterLeft` |
| 1300 | `len` (ExactSizeIterator for SingleIter) | `CycleMap.iterLeft` |
| 1321 | `next` (Iterator for DrainIter) | `CycleMap.DrainIter.next`, `CycleMap.drainForget`, `CycleMap.drainLoopU` |
| 1330 | `size_hint` (Iterator for DrainIter) | `CycleMap.DrainIter.len` |
| 1340 | `len` (ExactSizeIterator for DrainIter) | `CycleMap.DrainIter.len` |
| 1368 | `drop` (Drop for DrainFilterIter) | `CycleMap.DrainFilter.dropLoop`, `CycleMap.DrainFilterB.calls`, `CycleMap.drainFilterForget`, `CycleMap.drainFilterP`, `CycleMap.drainFilterTake`, `CycleMap.drainFilterU` |
| 1380 | `drop` (Drop for ConsumeAllOnDrop) | `CycleMap.DrainFilter.dropLoop`, `CycleMap.DrainFilterB.calls`, `CycleMap.drainFilterTake` |
| 1391 | `next` (Iterator for DrainFilterIter) | `CycleMap.DrainFilterB.next`, `CycleMap.drainFilterForget`, `CycleMap.drainFilterTake` |
| 1396 | `size_hint` (Iterator for DrainFilterIter) | `CycleMap.DrainFilter.sizeHint` |
| 1411 | `next` | `CycleMap.DrainFilter.next`, `CycleMap.DrainFilter.nextP`, `CycleMap.DrainFilter.nextU`, `CycleMap.DrainFilterB.nextB` |
| 1435 | `extract` | `CycleMap.MappingPair.extract` |
| 1441 | `hash` (Hash for MappingPair) | `CycleMap.MappingPair.hashWith` |
| 1447 | `eq` (PartialEq for MappingPair) | `CycleMap.MappingPair.beq` |
| 1453 | `eq` (PartialEq for MappingPair) | `CycleMap.MappingPair.beqItem` |
| 1461 | `clone` (Clone for MappingPair) | `CycleMap.MappingPair.clone` |
| 1471 | `fmt` (fmt::Debug for MappingPair) | `CycleMap.MappingPair.debug` |

## src/partial_cycle_map.rs

| line | function | Lean |
|---|---|---|
| 31 | `equivalent_key` | `PartialMap.equivalentKey` |
| 35 | `hash_and_id` | `PartialMap.hashAndId` |
| 40 | `just_id` | `PartialMap.justId` |
| 112 | `new` | `PartialMap.withHasher` |
| 124 | `with_capacity` | `PartialMap.withCapacityAndHasher` |
| 162 | `insert` | `PartialMap.Sturdy.insertU`, `PartialMap.insert`, `PartialMap.insertU` |
| 222 | `insert_left` | `PartialMap.Sturdy.insertLeftU`, `PartialMap.insertLeft`, `PartialMap.insertLeftU` |
| 269 | `insert_right` | `PartialMap.Sturdy.insertRightU`, `PartialMap.insertRight`, `PartialMap.insertRightU` |
| 312 | `pair` | `PartialMap.pair`, `PartialMap.pairU` |
| 360 | `pair_forced` | `PartialMap.pairForced`, `PartialMap.pairForcedU` |
| 461 | `pair_forced_remove` | `PartialMap.pairForcedRemove`, `PartialMap.pairForcedRemoveU` |
| 550 | `unpair` | `PartialMap.Sturdy.unpairU`, `PartialMap.unpair`, `PartialMap.unpairU` |
| 577 | `is_left_paired` | `PartialMap.isLeftPaired` |
| 589 | `is_right_paired` | `PartialMap.isRightPaired` |
| 611 | `are_paired` | `PartialMap.arePaired`, `PartialMap.arePairedU` |
| 637 | `contains_left` | `PartialMap.containsLeft` |
| 655 | `contains_right` | `PartialMap.containsRight` |
| 671 | `remove` | `PartialMap.remove`, `PartialMap.removeU` |
| 693 | `remove_left` | `PartialMap.removeLeft`, `PartialMap.removeLeftU` |
| 718 | `remove_via_left` | `PartialMap.removeViaLeft`, `PartialMap.removeViaLeftU` |
| 752 | `remove_right` | `PartialMap.removeRight`, `PartialMap.removeRightU` |
| 776 | `remove_via_right` | `PartialMap.removeViaRight`, `PartialMap.removeViaRightU` |
| 798 | `remove_via_hashes_and_id` | `PartialMap.removeViaHashesAndId` |
| 842 | `swap_left` | `PartialMap.Sturdy.swapLeftCoreU`, `PartialMap.Sturdy.swapLeftU`, `PartialMap.swapLeft`, `PartialMap.swapLeftU` |
| 909 | `swap_left_checked` | `PartialMap.Sturdy.swapLeftCheckedU`, `PartialMap.swapLeftChecked`, `PartialMap.swapLeftCheckedU` |
| 940 | `swap_left_or_insert` | `PartialMap.Sturdy.swapLeftOrInsertU`, `PartialMap.swapLeftOrInsert`, `PartialMap.swapLeftOrInsertU` |
| 962 | `swap_left_eq_check` | `PartialMap.swapLeftEqCheck`, `PartialMap.swapLeftEqCheckU` |
| 997 | `swap_right` | `PartialMap.Sturdy.swapRightCoreU`, `PartialMap.Sturdy.swapRightU`, `PartialMap.swapRight`, `PartialMap.swapRightU` |
| 1064 | `swap_right_checked` | `PartialMap.Sturdy.swapRightCheckedU`, `PartialMap.swapRightChecked`, `PartialMap.swapRightCheckedU` |
| 1095 | `swap_right_or_insert` | `PartialMap.Sturdy.swapRightOrInsertU`, `PartialMap.swapRightOrInsert`, `PartialMap.swapRightOrInsertU` |
| 1122 | `swap_right_eq_check` | `PartialMap.swapRightEqCheck`, `PartialMap.swapRightEqCheckU` |
| 1145 | `get_left` | `PartialMap.getLeftBy` |
| 1174 | `get_right` | `PartialMap.Sturdy.iterU`, `PartialMap.getRightBy`, `PartialMap.nextU` |
| 1192 | `get_via_hashes_and_id` | `PartialMap.getViaHashesAndId` |
| 1199 | `get_left_inner` | `PartialMap.getLeftInner` |
| 1205 | `get_left_inner_with_hash` | `PartialMap.getRightBy` |
| 1214 | `get_right_inner` | `PartialMap.getRightInner` |
| 1220 | `get_right_inner_with_hash` | `PartialMap.getLeftBy` |
| 1248 | `iter` | `PartialMap.Sturdy.iterU`, `PartialMap.collectU`, `PartialMap.iter` |
| 1267 | `iter_paired` | `PartialMap.collectPairedU`, `PartialMap.iterPaired` |
| 1294 | `iter_unpaired` | `PartialMap.iterUnpaired` |
| 1314 | `iter_left` | `PartialMap.iterLeft` |
| 1333 | `iter_right` | `PartialMap.iterRight` |
| 1366 | `drain` | `PartialMap.Sturdy.quietU`, `PartialMap.drain`, `PartialMap.drainForget`, `PartialMap.drainU` |
| 1401 | `drain_filter` | `PartialMap.DrainFilterB.start`, `PartialMap.Repair.drainFilterP`, `PartialMap.Sturdy.quietU`, `PartialMap.drainFilterD`, `PartialMap.drainFilterForget`, `PartialMap.drainFilterP`, `PartialMap.drainFilterTake`, `PartialMap.drainFilterU` |
| 1434 | `retain` | `PartialMap.Sturdy.onPairs`, `PartialMap.Sturdy.retainU`, `PartialMap.retain`, `PartialMap.retainD`, `PartialMap.retainP`, `PartialMap.retainU` |
| 1486 | `retain_paired` | `PartialMap.Sturdy.retainPairedU`, `PartialMap.retainPaired`, `PartialMap.retainPairedD`, `PartialMap.retainPairedP`, `PartialMap.retainPairedU` |
| 1519 | `retain_unpaired` | `PartialMap.Sturdy.retainUnpairedU`, `PartialMap.retainUnpaired`, `PartialMap.retainUnpairedD`, `PartialMap.retainUnpairedP`, `PartialMap.retainUnpairedU` |
| 1580 | `shrink_to_left` | `PartialMap.Sturdy.quietU`, `PartialMap.shrinkToLeft`, `PartialMap.shrinkToLeftU` |
| 1606 | `shrink_to_right` | `PartialMap.Sturdy.quietU`, `PartialMap.shrinkToRight`, `PartialMap.shrinkToRightU` |
| 1626 | `shrink_to_fit` | `PartialMap.Sturdy.quietU`, `PartialMap.shrinkToFit`, `PartialMap.shrinkToFitU` |
| 1645 | `reserve_left` | `PartialMap.Sturdy.quietU`, `PartialMap.reserveLeft`, `PartialMap.reserveLeftU` |
| 1662 | `reserve_right` | `PartialMap.Sturdy.quietU`, `PartialMap.reserveRight`, `PartialMap.reserveRightU` |
| 1679 | `try_reserve_left` | `PartialMap.tryReserveLeft` |
| 1697 | `try_reserve_right` | `PartialMap.tryReserveRight` |
| 1710 | `clone` (Clone for PartialCycleMap) | `PartialMap.clone` |
| 1724 | `default` (Default for PartialCycleMap) | `PartialMap.withHasher` |
| 1735 | `fmt` (fmt::Debug for PartialCycleMap) | `PartialMap.debug` |
| 1746 | `eq` (PartialEq for PartialCycleMap) | `PartialMap.eq` |
| 1788 | `with_hasher` | `PartialMap.withHasher` |
| 1818 | `with_capacity_and_hasher` | `PartialMap.withCapacityAndHasher` |
| 1828 | `hasher` | `PartialMap.hasher` |
| 1840 | `capacity_left` | `PartialMap.capacityLeft` |
| 1853 | `capacity_right` | `PartialMap.capacityRight` |
| 1870 | `len_left` | `PartialMap.lenLeft` |
| 1886 | `len_right` | `PartialMap.lenRight` |
| 1902 | `is_empty` | `PartialMap.isEmpty` |
| 1919 | `clear` | `PartialMap.clear`, `PartialMap.clearD` |
| 1932 | `extend` (Extend for PartialCycleMap) | `PartialMap.Sturdy.extendPairsU`, `PartialMap.extendPairs`, `PartialMap.extendPairsD`, `PartialMap.extendPairsU` |
| 1946 | `extend` (Extend for PartialCycleMap) | `PartialMap.Sturdy.extendU`, `PartialMap.extend`, `PartialMap.extendD`, `PartialMap.extendU` |
| 1969 | `from_iter` (FromIterator for PartialCycleMap) | `PartialMap.fromPairs` |
| 1981 | `from_iter` (FromIterator for PartialCycleMap) | `PartialMap.fromIter` |
| 1995 | `clone` (Clone for Iter) | `PartialMap.Iter.clone` |
| 2009 | `fmt` (fmt::Debug for Iter) | `PartialMap.Iter.debug` |
| 2022 | `next` (Iterator for Iter) | `PartialMap.Iter.next`, `PartialMap.nextU` |
| 2033 | `size_hint` (Iterator for Iter) | `PartialMap.Iter.sizeHint` |
| 2044 | `len` (ExactSizeIterator for Iter) | `PartialMap.Iter.len` |
| 2065 | `clone` (Clone for PairedIter) | `PartialMap.PairedIter.clone` |
| 2080 | `fmt` (fmt::Debug for PairedIter) | `PartialMap.PairedIter.debug` |
| 2093 | `next` (Iterator for PairedIter) | `PartialMap.PairedIter.next`, `PartialMap.collectPairedU`, `PartialMap.retainPairedScanU` |
| 2110 | `size_hint` (Iterator for PairedIter) | `PartialMap.PairedIter.sizeHint` |
| 2121 | `len` (ExactSizeIterator for PairedIter) | `PartialMap.PairedIter.len` |
| 2142 | `clone` (Clone for UnpairedIter) | `PartialMap.UnpairedIter.clone` |
| 2157 | `fmt` (fmt::Debug for UnpairedIter) | `PartialMap.UnpairedIter.debug` |
| 2170 | `next` (Iterator for UnpairedIter) | `PartialMap.UnpairedIter.next` |
| 2190 | `size_hint` (Iterator for UnpairedIter) | `PartialMap.UnpairedIter.sizeHint` |
| 2201 | `len` (ExactSizeIterator for UnpairedIter) | `PartialMap.UnpairedIter.len` |
| 2221 | `clone` (Clone for SingleIter) | `PartialMap.iterLeft` |
| 2233 | `fmt` (fmt::Debug for SingleIter) | `PartialMap.debugLeftIter`, `PartialMap.debugRightIter`, `PartialMap.iterLeft` |
| 2244 | `next` (Iterator for SingleIter) | `PartialMap.iterLeft` |
| 2253 | `size_hint` (Iterator for SingleIter) | `PartialMap.iterLeft` |
| 2262 | `len` (ExactSizeIterator for SingleIter) | `PartialMap.iterLeft` |
| 2285 | `drop` (Drop for DrainIter) | `PartialMap.drainForget`, `PartialMap.drainTake`, `PartialMap.drainU` |
| 2297 | `drop` (Drop for ConsumeAllOnDrop) | `PartialMap.DrainFilter.dropLoop`, `PartialMap.drainFilterTake` |
| 2309 | `next` (Iterator for DrainIter) | `PartialMap.DrainIter.next`, `PartialMap.DrainIter.nextU`, `PartialMap.drainForget` |
| 2331 | `size_hint` (Iterator for DrainIter) | `PartialMap.DrainIter.len` |
| 2341 | `len` (ExactSizeIterator for DrainIter) | `PartialMap.DrainIter.len` |
| 2371 | `drop` (Drop for DrainFilterIter) | `PartialMap.DrainFilter.dropLoop`, `PartialMap.DrainFilterB.calls`, `PartialMap.Repair.drainFilterP`, `PartialMap.drainFilterForget`, `PartialMap.drainFilterP`, `PartialMap.drainFilterTake`, `PartialMap.drainFilterU` |
| 2386 | `next` (Iterator for DrainFilterIter) | `PartialMap.drainFilterForget`, `PartialMap.drainFilterTake` |
| 2391 | `size_hint` (Iterator for DrainFilterIter) | `PartialMap.DrainFilter.sizeHint` |
| 2411 | `next` | `PartialMap.DrainFilter.next`, `PartialMap.DrainFilter.nextP`, `PartialMap.DrainFilter.nextU`, `PartialMap.DrainFilterB.next`, `PartialMap.Repair.DrainFilter.nextP` |
| 2451 | `extract` | `PartialMap.MappingPair.extract` |
| 2457 | `hash` (Hash for MappingPair) | `PartialMap.MappingPair.hashWith` |
| 2463 | `eq` (PartialEq for MappingPair) | `PartialMap.MappingPair.beq` |
| 2469 | `eq` (PartialEq for MappingPair) | `PartialMap.MappingPair.beqItem` |
| 2477 | `clone` (Clone for MappingPair) | `PartialMap.MappingPair.clone` |
| 2487 | `fmt` (fmt::Debug for MappingPair) | `PartialMap.MappingPair.debug` |

## src/group_map.rs

| line | function | Lean |
|---|---|---|
| 23 | `equivalent_key_left` | `GroupMap.equivalentKeyLeft` |
| 29 | `equivalent_key_right` | `GroupMap.equivalentKeyRight` |
| 35 | `left_with_left_id` | `GroupMap.leftWithLeftId` |
| 40 | `left_with_right_id` | — commented out in the source |
| 45 | `right_with_left_pair` | `GroupMap.rightWithLeftPair` |
| 51 | `right_with_right_id` | `GroupMap.rightWithRightId` |
| 170 | `new` | `GroupMap.withHasher` |
| 182 | `with_capacity` | `GroupMap.withCapacityAndHasher` |
| 231 | `insert` | `GroupMap.Sturdy.insertU`, `GroupMap.insert`, `GroupMap.insertU`, `GroupMap.unused` |
| 341 | `insert_remove` | `GroupMap.Sturdy.insertRemoveU`, `GroupMap.insertRemove`, `GroupMap.insertRemoveU` |
| 385 | `insert_left` | `GroupMap.Sturdy.insertLeftU`, `GroupMap.insertLeft`, `GroupMap.insertLeftU` |
| 434 | `insert_right` | `GroupMap.Sturdy.insertRightU`, `GroupMap.insertRight`, `GroupMap.insertRightU` |
| 472 | `swap_right` | `GroupMap.Sturdy.swapRightIdsU`, `GroupMap.swapRight`, `GroupMap.swapRightU` |
| 515 | `swap_right_remove` | `GroupMap.Sturdy.swapRightRemoveIdsU`, `GroupMap.swapRightRemove`, `GroupMap.swapRightRemoveU` |
| 562 | `pair` | `GroupMap.Sturdy.pairU`, `GroupMap.pair`, `GroupMap.pairU` |
| 605 | `is_right_paired` | `GroupMap.isRightPaired` |
| 625 | `are_paired` | `GroupMap.arePaired`, `GroupMap.arePairedU` |
| 649 | `contains_left` | `GroupMap.containsLeft` |
| 667 | `contains_right` | `GroupMap.containsRight` |
| 687 | `remove` | `GroupMap.Sturdy.removeU`, `GroupMap.remove`, `GroupMap.removeU` |
| 706 | `remove_left` | `GroupMap.Sturdy.takeLeftU`, `GroupMap.removeLeft`, `GroupMap.removeLeftU` |
| 735 | `remove_right` | `GroupMap.Sturdy.removeRightU`, `GroupMap.removeRight`, `GroupMap.removeRightU` |
| 754 | `remove_via_hash_and_id` | `GroupMap.removeViaHashAndId`, `GroupMap.removeViaHashAndIdU` |
| 787 | `get_left_iter` | `GroupMap.getLeftIterBy` |
| 812 | `get_right` | `GroupMap.getRightBy` |
| 829 | `get_left_inner_with_hash` | `GroupMap.getLeftInnerWithHash` |
| 838 | `get_right_inner_with_hash` | `GroupMap.getRightInnerWithHash` |
| 864 | `iter` | `GroupMap.iter` |
| 886 | `iter_paired` | `GroupMap.iterPaired` |
| 907 | `iter_unpaired` | `GroupMap.iterUnpaired` |
| 927 | `iter_left` | `GroupMap.iterLeft` |
| 947 | `iter_right` | `GroupMap.iterRight` |
| 972 | `retain_paired` | `GroupMap.Sturdy.retainPairedU`, `GroupMap.retainPaired`, `GroupMap.retainPairedP`, `GroupMap.retainPairedU` |
| 1005 | `retain_unpaired` | `GroupMap.Sturdy.retainUnpairedU`, `GroupMap.retainUnpaired`, `GroupMap.retainUnpairedD`, `GroupMap.retainUnpairedP`, `GroupMap.retainUnpairedU` |
| 1030 | `clone` (Clone for GroupMap) | `GroupMap.clone` |
| 1045 | `default` (Default for GroupMap) | `GroupMap.withHasher` |
| 1056 | `fmt` (fmt::Debug for GroupMap) | `GroupMap.debug` |
| 1067 | `eq` (PartialEq for GroupMap) | `GroupMap.eq` |
| 1105 | `with_hasher` | `GroupMap.withHasher` |
| 1136 | `with_capacity_and_hasher` | `GroupMap.withCapacityAndHasher` |
| 1147 | `hasher` | `GroupMap.hasher` |
| 1159 | `capacity_left` | `GroupMap.capacityLeft` |
| 1172 | `capacity_right` | `GroupMap.capacityRight` |
| 1189 | `len_left` | `GroupMap.lenLeft` |
| 1205 | `len_right` | `GroupMap.lenRight` |
| 1227 | `is_empty` | `GroupMap.isEmpty` |
| 1244 | `clear` | `GroupMap.clear`, `GroupMap.clearD` |
| 1257 | `extend` (Extend for GroupMap) | `GroupMap.Sturdy.extendOptU`, `GroupMap.extendOpt`, `GroupMap.extendOptD`, `GroupMap.extendOptU` |
| 1275 | `extend` (Extend for GroupMap) | `GroupMap.Sturdy.extendU`, `GroupMap.extend`, `GroupMap.extendD`, `GroupMap.extendU` |
| 1287 | `from_iter` (FromIterator for GroupMap) | `GroupMap.fromIterOpt` |
| 1299 | `from_iter` (FromIterator for GroupMap) | `GroupMap.fromIter` |
| 1314 | `clone` (Clone for Iter) | `GroupMap.Iter.clone` |
| 1329 | `fmt` (fmt::Debug for Iter) | `GroupMap.Iter.debug` |
| 1342 | `next` (Iterator for Iter) | `GroupMap.Iter.next` |
| 1379 | `size_hint` (Iterator for Iter) | `GroupMap.Iter.sizeHint` |
| 1390 | `len` (ExactSizeIterator for Iter) | `GroupMap.Iter.len` |
| 1410 | `clone` (Clone for PairedIter) | `GroupMap.PairedIter.clone` |
| 1424 | `fmt` (fmt::Debug for PairedIter) | `GroupMap.PairedIter.debug` |
| 1437 | `next` (Iterator for PairedIter) | `GroupMap.PairedIter.next`, `GroupMap.retainPairedScanU` |
| 1452 | `size_hint` (Iterator for PairedIter) | `GroupMap.PairedIter.sizeHint` |
| 1463 | `len` (ExactSizeIterator for PairedIter) | `GroupMap.PairedIter.len` |
| 1483 | `clone` (Clone for UnpairedIter) | `GroupMap.UnpairedIter.clone` |
| 1497 | `fmt` (fmt::Debug for UnpairedIter) | `GroupMap.UnpairedIter.debug` |
| 1510 | `next` (Iterator for UnpairedIter) | `GroupMap.UnpairedIter.next` |
| 1519 | `size_hint` (Iterator for UnpairedIter) | `GroupMap.UnpairedIter.sizeHint` |
| 1530 | `len` (ExactSizeIterator for UnpairedIter) | `GroupMap.UnpairedIter.len` |
| 1550 | `clone` (Clone for LeftIter) | `GroupMap.iterLeft` |
| 1562 | `fmt` (fmt::Debug for LeftIter) | `GroupMap.debugLeftIter`, `GroupMap.iterLeft` |
| 1570 | `next` (Iterator for LeftIter) | `GroupMap.iterLeft` |
| 1573 | `size_hint` (Iterator for LeftIter) | `GroupMap.iterLeft` |
| 1579 | `len` (ExactSizeIterator for LeftIter) | `GroupMap.iterLeft` |
| 1593 | `clone` (Clone for RightIter) | `GroupMap.iterRight` |
| 1605 | `fmt` (fmt::Debug for RightIter) | `GroupMap.debugRightIter`, `GroupMap.iterRight` |
| 1613 | `next` (Iterator for RightIter) | `GroupMap.iterRight` |
| 1616 | `size_hint` (Iterator for RightIter) | `GroupMap.iterRight` |
| 1622 | `len` (ExactSizeIterator for RightIter) | `GroupMap.iterRight` |
| 1637 | `clone` (Clone for PairIter) | `GroupMap.PairIter.clone` |
| 1650 | `fmt` (fmt::Debug for PairIter) | `GroupMap.PairIter.debug` |
| 1661 | `next` (Iterator for PairIter) | `GroupMap.PairIter.next` |
| 1671 | `size_hint` (Iterator for PairIter) | `GroupMap.PairIter.len` |
| 1680 | `len` (ExactSizeIterator for PairIter) | `GroupMap.PairIter.len` |
| 1689 | `extract` | `GroupMap.LeftItem.extract` |
| 1695 | `hash` (Hash for LeftItem) | `GroupMap.LeftItem.hashWith` |
| 1701 | `eq` (PartialEq for LeftItem) | `GroupMap.LeftItem.beq` |
| 1709 | `clone` (Clone for LeftItem) | `GroupMap.LeftItem.clone` |
| 1720 | `fmt` (fmt::Debug for LeftItem) | `GroupMap.LeftItem.debug` |
| 1731 | `extract` | `GroupMap.RightItem.extract` |
| 1737 | `hash` (Hash for RightItem) | `GroupMap.RightItem.hashWith` |
| 1743 | `eq` (PartialEq for RightItem) | `GroupMap.RightItem.beq` |
| 1751 | `clone` (Clone for RightItem) | `GroupMap.RightItem.clone` |
| 1761 | `fmt` (fmt::Debug for RightItem) | `GroupMap.RightItem.debug` |
| 1771 | `add_assign` (AddAssign for ID) | `GroupMap` |

## src/optionals.rs

| line | function | Lean |
|---|---|---|
| 49 | `is_none` | `OptionalPair.isNone` |
| 56 | `is_some` | `OptionalPair.isSome` |
| 61 | `get_left` | `OptionalPair.getLeft` |
| 69 | `get_right` | `OptionalPair.getRight` |
| 78 | `convert` | `OptionalPair.convert` |
| 87 | `map` | `OptionalPair.map` |
| 103 | `map_left` | `OptionalPair.mapLeft` |
| 117 | `map_right` | `OptionalPair.mapRight` |
| 138 | `cloned` | `OptionalPair.cloned` |
| 153 | `clone` (Clone for OptionalPair) | `OptionalPair.cloned` |
| 168 | `fmt` (fmt::Debug for OptionalPair) | `OptionalPair.debug` |
| 191 | `from` (From for OptionalPair) | `OptionalPair.ofPair` |
| 206 | `from` (From for OptionalPair) | `OptionalPair.ofOption` |
| 221 | `from` (From for (Option<L>, Option<R>)) | `OptionalPair.toPair` |
| 236 | `from` (From for Option) | `OptionalPair.toOption` |

## src/serde.rs

| line | function | Lean |
|---|---|---|
| 23 | `new` | `CycleMap.visitSeq` |
| 38 | `expecting` (Visitor for CycleMapVisitor) | `CycleMap.visitSeq` |
| 42 | `visit_seq` (Visitor for CycleMapVisitor) | `CycleMap.visitSeq` |
| 63 | `deserialize` (Deserialize for CycleMap) | `CycleMap.visitSeq` |
| 77 | `serialize` (Serialize for CycleMap) | `CycleMap.serialize`, `CycleMap.serializeTo` |
| 102 | `construct_default_map` (Serialize for CycleMap) | — test code |
| 109 | `serialize_deserialize_test` (Serialize for CycleMap) | — test code |
| 121 | `from_value` | — test code |

## src/utils.rs

| line | function | Lean |
|---|---|---|
| 4 | `make_hash` | `BuildHasher` |
| 16 | `make_hasher` | `BuildHasher`, `CycleMap.MappingPair.hashWith`, `GroupMap.LeftItem.hashWith`, `PartialMap.MappingPair.hashWith` |
