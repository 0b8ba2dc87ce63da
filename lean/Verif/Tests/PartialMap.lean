import Verif.Tests.Basic
import Verif.PartialMap.Model
/-
`/repo/tests/partial_cycle_map_tests.rs`, run on the model.  Line numbers are those of the test file.  The tests of the
`retain` family (lines 237-333) record that what the closure accepts is removed.
-/
namespace Verif.Tests.Partial
open OptionalPair

variable [RawImpl] (caps : Bool) (b : Bool)

abbrev M := PartialMap String TestingStruct
abbrev fv := TestingStruct.fromValue

/-- `construct_default_map`, lines 13-17 -/
def constructDefaultMap : T M :=
  call 14 (PartialMap.fromPairs (hasherOf _ _ b) ((List.range 10).map fun i => (toString i, fv i)))

/-- `construct_unpaired_map`, lines 19-26 -/
def constructUnpairedMap : T M := do
  let mut digest : M := PartialMap.withCapacityAndHasher 10 (hasherOf _ _ b)
  for i in List.range 10 do
    digest := (← call 22 (digest.insertLeft (toString i))).2
    digest := (← call 23 (digest.insertRight (fv i))).2
  return digest

/-- lines 28-53 -/
def construction_test : T Unit := do
  let map : M := PartialMap.withHasher (hasherOf _ _ b)
  check 31 (map.lenLeft == 0)
  check 32 (map.lenRight == 0)
  if caps then check 33 (map.capacityLeft == 0 && map.capacityRight == 0)
  let mut map ← constructDefaultMap b
  check 36 (map.lenLeft == 10)
  check 37 (map.lenRight == 10)
  let lCap := map.capacityLeft
  let rCap := map.capacityRight
  map := map.clear
  check 41 map.isEmpty
  check 42 (map.lenLeft == 0)
  check 43 (map.lenRight == 0)
  if caps then check 44 (map.capacityLeft == lCap && map.capacityRight == rCap)
  map ← constructUnpairedMap b
  check 51 (map.lenLeft == 10)
  check 52 (map.lenRight == 10)

/-- lines 55-69 -/
def insert_test : T Unit := do
  let mut map : PartialMap Nat String := PartialMap.withCapacityAndHasher 100 (hasherOf _ _ b)
  for i in List.range 100 do
    let (opt, m) ← call 59 (map.insert i (toString i))
    map := m
    check 60 (opt.1.beq neither && opt.2.beq neither)
  check 62 (map.lenLeft == 100)
  check 63 (map.lenRight == 100)
  for (val, s) in (← call 64 map.iterPairedList) do
    check 65 (toString val == s)
    check 66 (s.toNat? == some val)

/-- lines 71-84 -/
def get_tests : T Unit := do
  let map ← constructDefaultMap b
  check 74 (map.containsLeft "0")
  check 75 (map.containsRight (fv 0))
  check 77 (map.getLeft (fv 42)).isNone
  check 79 (map.getLeft (fv 0) == some "0")
  check 81 (map.getRight "42").isNone
  check 83 (map.getRight "0" == some (fv 0))

/-- lines 86-106 -/
def remove_tests : T Unit := do
  let map ← constructDefaultMap b
  let (opt, map) ← call 90 (map.remove "42" (fv 42))
  check 91 opt.isNone
  let (opt, _) ← call 92 (map.remove "0" (fv 0))
  check 93 (opt == some ("0", fv 0))
  let map ← constructDefaultMap b
  let (opt, map) ← call 96 (map.removeViaRight (fv 42))
  check 97 opt.isNone
  let (opt, _) ← call 98 (map.removeViaRight (fv 0))
  check 99 (opt.beq (someBoth "0" (fv 0)))
  let map ← constructDefaultMap b
  let (opt, map) ← call 102 (map.removeViaLeft "42")
  check 103 opt.isNone
  let (opt, _) ← call 104 (map.removeViaLeft "0")
  check 105 (opt.beq (someBoth "0" (fv 0)))

/-- equality of what the swaps return -/
def sameSwap {A L R : Type} [BEq A] [BEq L] [BEq R] : OptionalPair A (OptionalPair L R) → OptionalPair A (OptionalPair L R) → Bool :=
  letI : BEq (OptionalPair L R) := ⟨OptionalPair.beq⟩
  OptionalPair.beq

/-- lines 108-132 -/
def swap_left_not_found_test : T Unit := do
  let map ← constructDefaultMap b
  let (opt, _) ← call 112 (map.swapLeft "101" "102")
  check 113 (sameSwap opt neither)
  let map ← constructDefaultMap b
  let (opt, map) ← call 116 (map.swapLeft "0" "101")
  check 117 (sameSwap opt (someLeft "0"))
  check 119 (map.getRight "101" == some (fv 0))
  let map ← constructDefaultMap b
  let (opt, map) ← call 122 (map.swapLeft "0" "1")
  check 123 (sameSwap opt (someBoth "0" (someBoth "1" (fv 1))))
  check 131 (map.getRight "1" == some (fv 0))

/-- lines 134-149 -/
def swap_left_checked_test : T Unit := do
  let map ← constructDefaultMap b
  let (opt, map) ← call 137 (map.swapLeftChecked "0" (fv 1) "2")
  check 142 (sameSwap opt neither)
  let (opt, _) ← call 143 (map.swapLeftChecked "0" (fv 0) "101")
  check 148 (sameSwap opt (someLeft "0"))

/-- lines 151-168 -/
def swap_left_or_insert_tests : T Unit := do
  let map ← constructDefaultMap b
  let (opt, _) ← call 154 (map.swapLeftOrInsert "0" "101" (fv 0))
  check 159 (sameSwap opt (someLeft "0"))
  let map ← constructDefaultMap b
  let (opt, _) ← call 162 (map.swapLeftOrInsert "101" "102" (fv 102))
  check 167 (sameSwap opt neither)

/-- lines 170-200 -/
def swap_right_not_found_test : T Unit := do
  let map ← constructDefaultMap b
  let (opt, _) ← call 174 (map.swapRight (fv 101) (fv 102))
  check 178 (sameSwap opt neither)
  let map ← constructDefaultMap b
  let (opt, map) ← call 181 (map.swapRight (fv 0) (fv 101))
  check 185 (sameSwap opt (someLeft (fv 0)))
  check 187 (map.getLeft (fv 101) == some "0")
  let map ← constructDefaultMap b
  let (opt, map) ← call 190 (map.swapRight (fv 0) (fv 1))
  check 191 (sameSwap opt (someBoth (fv 0) (someBoth "1" (fv 1))))
  check 199 (map.getLeft (fv 1) == some "0")

/-- lines 202-217 -/
def swap_right_checked_test : T Unit := do
  let map ← constructDefaultMap b
  let (opt, map) ← call 205 (map.swapRightChecked (fv 1) "0" (fv 2))
  check 210 (sameSwap opt neither)
  let (opt, _) ← call 211 (map.swapRightChecked (fv 0) "0" (fv 101))
  check 216 (sameSwap opt (someLeft (fv 0)))

/-- lines 219-235 -/
def swap_right_or_insert_tests : T Unit := do
  let map ← constructDefaultMap b
  let (opt, _) ← call 222 (map.swapRightOrInsert (fv 0) (fv 101) "0")
  check 227 (sameSwap opt (someLeft (fv 0)))
  let map ← constructDefaultMap b
  let (opt, _) ← call 229 (map.swapRightOrInsert (fv 101) (fv 102) "102")
  check 234 (sameSwap opt neither)

/-- lines 239-253, 275-289 and 303-317 -/
def thirds : T (PartialMap Nat String) := do
  let mut map : PartialMap Nat String := PartialMap.withCapacityAndHasher 100 (hasherOf _ _ b)
  for i in List.range 100 do
    if i < 34 then
      let (opt, m) ← call 242 (map.insert i (toString i))
      map := m
      check 243 (opt.1.beq neither && opt.2.beq neither)
    else if i < 67 then
      let (opt, m) ← call 245 (map.insertLeft i)
      map := m
      check 246 (opt.beq neither)
    else
      let (opt, m) ← call 248 (map.insertRight (toString i))
      map := m
      check 249 (opt.beq neither)
  check 252 (map.lenLeft == 67)
  check 253 (map.lenRight == 67)
  return map

/-- the closure of lines 254-260 and 318-324 -/
def evenLeft (_ : Unit) (x : OptionalPair Nat String) : Bool × Unit :=
  (match x.getLeft with
   | some l => l % 2 == 0
   | none => true, ())

/-- lines 237-271 -/
def retain_test : T Unit := do
  let map ← thirds b
  let (_, map) ← call 254 (map.retain evenLeft ())
  check 261 (map.lenLeft == 33)
  check 262 (map.lenRight == 50)
  for op in map.iterList do
    match op with
    | someLeft val | someBoth val _ => check 266 (val % 2 == 1)
    | _ => pure ()

/-- lines 273-299 -/
def retain_paired_test : T Unit := do
  let map ← thirds b
  let (_, map) ← call 290 (map.retainPaired (fun (_ : Unit) l _ => (l % 2 == 0, ())) ())
  check 291 (map.lenLeft == 50)
  check 292 (map.lenRight == 50)
  for op in map.iterList do
    match op with
    | someBoth val _ => check 296 (val % 2 == 1)
    | _ => pure ()

/-- lines 301-333 -/
def retain_unpaired_test : T Unit := do
  let map ← thirds b
  let (_, map) ← call 318 (map.retainUnpaired evenLeft ())
  check 325 (map.lenLeft == 50)
  check 326 (map.lenRight == 34)
  for op in map.iterList do
    match op with
    | someLeft val => check 330 (val % 2 == 1)
    | _ => pure ()

/-- lines 335-370 -/
def iter_tests : T Unit := do
  let map ← constructDefaultMap b
  check 341 (map.iter.len map == 10)
  let again : M ← call 343 (PartialMap.fromIter (hasherOf _ _ b) map.iterList)
  check 343 (← call 343 (again.eq map))
  check 352 (map.iterLeft.length == 10)
  check 354 (sameSet map.iterLeft ((List.range 10).map toString))
  check 362 (map.iterRight.length == 10)
  check 364 (sameSet map.iterRight ((List.range 10).map fv))

/-- lines 372-395 -/
def paired_iter_tests : T Unit := do
  let map ← constructDefaultMap b
  check 378 ((← call 378 (map.iterPaired.len map)) == 10)
  let again : M ← call 380 (PartialMap.fromPairs (hasherOf _ _ b) (← call 380 map.iterPairedList))
  check 380 (← call 380 (again.eq map))
  let map ← constructUnpairedMap b
  check 388 ((← call 388 (map.iterPaired.len map)) == 0)
  let again : M ← call 390 (PartialMap.fromPairs (hasherOf _ _ b) (← call 390 map.iterPairedList))
  check 390 (← call 390 (again.eq (PartialMap.withHasher (hasherOf _ _ b))))

/-- lines 397-420 -/
def unpaired_iter_tests : T Unit := do
  let map ← constructUnpairedMap b
  check 403 (map.iterUnpaired.len == 20)
  let again : M ← call 405 (PartialMap.fromIter (hasherOf _ _ b) map.iterUnpairedList)
  check 405 (← call 405 (again.eq map))
  let map ← constructDefaultMap b
  check 413 (map.iterUnpaired.len == 0)
  let again : M ← call 415 (PartialMap.fromIter (hasherOf _ _ b) map.iterUnpairedList)
  check 415 (← call 415 (again.eq (PartialMap.withHasher (hasherOf _ _ b))))

/-- a map in which the first five pairs are made with `pair` -/
def fivePaired : T M := do
  let mut map ← constructUnpairedMap b
  for i in List.range 5 do
    let (ok, m) := map.pair (toString i) (fv i)
    map := m
    check 426 ok
  return map

/-- lines 422-438 -/
def pairing_tests : T Unit := do
  let mut map ← fivePaired b
  for i in List.range 5 do
    let (ok, m) := map.pair (toString i) (fv (i + 5))
    map := m
    check 429 (!ok)
  for i in List.range 10 do
    if i < 5 then check 433 (map.arePaired (toString i) (fv i))
    else check 435 (!map.arePaired (toString i) (fv i))

/-- lines 440-461 -/
def unpair_tests : T Unit := do
  let mut map ← fivePaired b
  for (l, r) in [(10, 0), (0, 10), (10, 10), (0, 5), (5, 0), (5, 5)] do
    let (ok, m) := map.unpair (toString l) (fv r)
    map := m
    check 448 (!ok)
  let (ok, m) := map.unpair "0" (fv 0)
  check 458 ok
  check 459 (!m.arePaired "0" (fv 0))

/-- lines 462-484 -/
def remove_left_tests : T Unit := do
  let map ← fivePaired b
  let (opt, map) ← call 470 (map.removeLeft "10")
  check 471 opt.isNone
  let (opt, map) ← call 474 (map.removeLeft "0")
  check 475 (opt == some "0")
  check 476 (!map.containsLeft "0")
  check 477 (map.containsRight (fv 0))
  let (opt, map) ← call 480 (map.removeLeft "5")
  check 481 (opt == some "5")
  check 482 (!map.containsLeft "5")

/-- lines 485-507 -/
def remove_right_tests : T Unit := do
  let map ← fivePaired b
  let (opt, map) ← call 493 (map.removeRight (fv 10))
  check 494 opt.isNone
  let (opt, map) ← call 497 (map.removeRight (fv 0))
  check 498 (opt == some (fv 0))
  check 499 (!map.containsRight (fv 0))
  check 500 (map.containsLeft "0")
  let (opt, map) ← call 503 (map.removeRight (fv 5))
  check 504 (opt == some (fv 5))
  check 505 (!map.containsRight (fv 5))

/-- `(lo..hi).all(|i| map.are_paired(i, i + d))` -/
def allPaired (map : M) (lo hi d : Nat) : Bool :=
  ((List.range hi).drop lo).all fun i => map.arePaired (toString i) (fv (i + d))

/-- `(lo..hi).all(|i| !map.are_paired(i, i + d))` -/
def nonePaired (map : M) (lo hi d : Nat) : Bool :=
  ((List.range hi).drop lo).all fun i => !map.arePaired (toString i) (fv (i + d))

/-- lines 508-547 -/
def forced_pairing_tests : T Unit := do
  let mut map ← constructUnpairedMap b
  for i in List.range 5 do
    let (opt, m) ← call 512 (map.pairForced (toString i) (fv i))
    map := m
    check 511 (opt.beq neither)
  check 516 (allPaired map 0 5 0)
  for i in List.range 5 do
    let (opt, m) ← call 519 (map.pairForced (toString i) (fv (i + 5)))
    map := m
    check 518 (opt.beq (someRight (fv i)))
  check 523 (nonePaired map 0 5 0)
  check 524 (allPaired map 0 5 5)
  for i in (List.range 10).drop 5 do
    let (opt, m) ← call 527 (map.pairForced (toString i) (fv i))
    map := m
    check 526 (opt.beq (someLeft (toString (i - 5))))
  check 531 (nonePaired map 0 5 5)
  check 532 (allPaired map 5 10 0)
  for i in List.range 10 do
    map := (← call 534 (map.pairForced (toString i) (fv i))).2
  for i in List.range 5 do
    let (opt, m) ← call 538 (map.pairForced (toString i) (fv (i + 5)))
    map := m
    check 537 (opt.beq (someBoth (toString (i + 5)) (fv i)))
  check 542 (allPaired map 0 5 5)
  check 543 (nonePaired map 0 10 0)
  check 544 (((List.range 10).drop 5).all fun i => !map.isLeftPaired (toString i))
  check 545 ((List.range 5).all fun i => !map.isRightPaired (fv i))

/-- lines 548-587 -/
def forced_removed_pairing_tests : T Unit := do
  let mut map ← constructUnpairedMap b
  for i in List.range 5 do
    let (opt, m) ← call 553 (map.pairForcedRemove (toString i) (fv i))
    map := m
    check 552 (opt.beq neither)
  check 557 (allPaired map 0 5 0)
  for i in List.range 5 do
    let (opt, m) ← call 560 (map.pairForcedRemove (toString i) (fv (i + 5)))
    map := m
    check 559 (opt.beq (someRight (fv i)))
  check 564 (nonePaired map 0 5 0)
  check 565 (allPaired map 0 5 5)
  for i in (List.range 10).drop 5 do
    let (opt, m) ← call 568 (map.pairForcedRemove (toString i) (fv i))
    map := m
    check 567 (opt.beq (someLeft (toString (i - 5))))
  check 572 (nonePaired map 0 5 5)
  check 573 (allPaired map 5 10 0)
  map ← constructUnpairedMap b
  for i in List.range 10 do
    map := (← call 577 (map.pairForcedRemove (toString i) (fv i))).2
  for i in List.range 5 do
    let (opt, m) ← call 581 (map.pairForcedRemove (toString i) (fv (i + 5)))
    map := m
    check 580 (opt.beq (someBoth (toString (i + 5)) (fv i)))
  check 585 (allPaired map 0 5 5)
  check 586 (nonePaired map 0 10 0)
  check 587 (((List.range 10).drop 5).all fun i => !map.isLeftPaired (toString i))
  check 588 ((List.range 5).all fun i => !map.isRightPaired (fv i))

/-- lines 592-597, 599-605 and 615-620 -/
def fiveForced : T M := do
  let mut map ← constructUnpairedMap b
  for i in List.range 5 do
    let (opt, m) ← call 595 (map.pairForcedRemove (toString i) (fv i))
    map := m
    check 594 (opt.beq neither)
  return map

/-- lines 626-637 (`rest = 0`) and 638-649 (`rest = 1`) -/
def withoutRight (rest : Nat) : T M := do
  let mut map ← constructUnpairedMap b
  for i in List.range 10 do
    if i % 2 == rest then map := (← call 629 (map.removeViaRight (fv i))).2
    else if i < 5 then
      let (opt, m) ← call 632 (map.pairForcedRemove (toString i) (fv i))
      map := m
      check 631 (opt.beq neither)
  return map

/-- lines 588-656 -/
def drain_tests : T Unit := do
  let map ← fiveForced b
  let lCap := map.capacityLeft
  let rCap := map.capacityRight
  let (out, map) ← call 599 (map.drainTake 21)
  let other : M ← call 599 (PartialMap.fromIter (hasherOf _ _ b) out)
  let new ← fiveForced b
  check 607 (map.lenLeft == 0)
  check 608 (map.lenRight == 0)
  if caps then check 609 (map.capacityLeft == lCap && map.capacityRight == rCap)
  check 611 (← call 611 (other.eq new))
  let map ← fiveForced b
  let f : Unit → OptionalPair String TestingStruct → Bool × Unit := fun _ op =>
    (match op.getRight with
     | some r => r.value % 2 == 0
     | none => false, ())
  let (out, _, map) ← call 622 (map.drainFilterTake f () 21)
  let other : M ← call 622 (PartialMap.fromIter (hasherOf _ _ b) out)
  let one ← withoutRight b 0
  let two ← withoutRight b 1
  check 650 (map.lenLeft == 7)
  check 651 (map.lenRight == 5)
  if caps then check 652 (map.capacityLeft == lCap && map.capacityRight == rCap)
  check 654 (← call 654 (map.eq one))
  check 655 (← call 655 (other.eq two))

/-- lines 658-663 -/
def misc_tests : T Unit := do
  let map ← constructDefaultMap b
  check 661 (!map.arePaired "0" (fv 1))

/-- lines 664-712 (lines 709 and 711, upper bounds on what shrinking leaves, are beyond the contract of the table) -/
def shrink_tests : T Unit := do
  let mut map : PartialMap Nat Nat := PartialMap.withCapacityAndHasher 100 (hasherOf _ _ b)
  let cap := (map.capacityLeft, map.capacityRight)
  map := (← call 668 (map.insert 1 2)).2
  map := (← call 669 (map.insert 3 4)).2
  check 670 (map.capacityLeft == cap.1)
  check 671 (map.capacityRight == cap.2)
  map := (map.shrinkToLeft 10).shrinkToRight 10
  check 674 (map.capacityLeft ≥ 10 && map.capacityLeft ≤ cap.1)
  check 676 (map.capacityRight ≥ 10 && map.capacityRight ≤ cap.2)
  map := (map.shrinkToLeft 0).shrinkToRight 0
  check 679 (map.capacityLeft ≥ 2 && map.capacityLeft ≤ cap.1)
  check 682 (map.capacityRight ≥ 2 && map.capacityRight ≤ cap.2)
  map := map.shrinkToFit
  check 708 (map.capacityLeft ≥ 2)
  check 710 (map.capacityRight ≥ 2)

/-- lines 714-737 -/
def reserve_tests : T Unit := do
  let map : PartialMap String Nat := PartialMap.withHasher (hasherOf _ _ b)
  check 718 (map.capacityLeft == 0 && map.capacityRight == 0)
  check 720 ((map.reserveLeft 10).capacityLeft != 0)
  check 723 ((map.reserveRight 10).capacityRight != 0)
  let (res, m) := map.tryReserveLeft 10 true
  check 730 (res && m.capacityLeft != 0)
  let (res, m) := m.tryReserveRight 10 true
  check 734 (res && m.capacityRight != 0)

/-- lines 738-744 -/
def eq_test : T Unit := do
  let map ← constructDefaultMap b
  let other ← constructDefaultMap b
  check 741 (← call 741 ((map.clone id id).eq other))
  check 742 (← call 742 (map.eq other))

def all : T Unit := do
  construction_test caps b; insert_test b; get_tests b; remove_tests b
  swap_left_not_found_test b; swap_left_checked_test b; swap_left_or_insert_tests b
  swap_right_not_found_test b; swap_right_checked_test b; swap_right_or_insert_tests b
  retain_test b; retain_paired_test b; retain_unpaired_test b
  iter_tests b; paired_iter_tests b; unpaired_iter_tests b; pairing_tests b; unpair_tests b
  remove_left_tests b; remove_right_tests b; forced_pairing_tests b; forced_removed_pairing_tests b
  drain_tests caps b; misc_tests b
  if caps then do shrink_tests b; reserve_tests b
  eq_test b

#guard (@all tidyRaw true true).isOk
#guard (@all tidyRaw true false).isOk
#guard (@all messyRaw false true).isOk
#guard (@all messyRaw false false).isOk
#guard (@all patchyRaw false true).isOk
#guard (@all patchyRaw false false).isOk

end Verif.Tests.Partial
