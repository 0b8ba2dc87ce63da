import Verif.Tests.CycleMap
import Verif.Tests.PartialMap
import Verif.Tests.GroupMap
/-
The examples in the documentation of the crate (`/repo/src`), run on the model.  Line numbers are those of the source
file.  Examples without assertions are left out.
-/
namespace Verif.Tests.Docs
open OptionalPair

variable [RawImpl] (caps : Bool) (b : Bool)

/-- the `&str` items of the examples -/
abbrev one : String := "1"

/-- `(0..n).map(|i| (i, i.to_string())).collect()` -/
def cycle (n : Nat) : T (CycleMap Nat String) :=
  call 0 (CycleMap.fromIter (hasherOf _ _ b) ((List.range n).map fun i => (i, toString i)))

/-- the numbers of the example at `/repo/src/cycle_map.rs:56-87` -/
def words : List (String × Nat) :=
  [("zero", 0), ("one", 1), ("two", 2), ("three", 3), ("four", 4), ("five", 5), ("six", 6), ("seven", 7), ("eight", 8),
   ("nine", 9)]

/-- `/repo/src/cycle_map.rs` -/
def cycleDocs : T Unit := do
  -- 56-87
  let c : CycleMap String Nat ← call 61 (CycleMap.fromIter (hasherOf _ _ b) words)
  check 67 (c.len == 10)
  check 75 (c.getLeft 7 == some "seven")
  check 76 (c.getRight "three" == some 3)
  let (o, c) ← call 79 (c.removeViaRight 7)
  check 79 (o == some ("seven", 7))
  let (o, c) ← call 80 (c.removeViaLeft "three")
  check 80 (o == some ("three", 3))
  let (_, c) ← call 83 (c.retain (fun (_ : Unit) _ i => (i % 2 == 0, ())) ())
  check 84 (c.containsRight 2)
  -- 134-154
  let m ← cycle b 5
  let (o, m) ← call 140 (m.insert 5 "5")
  check 140 (o.beq neither)
  let (o, m) ← call 144 (m.insert 0 "6")
  check 144 (o.beq (someLeft (0, "0")))
  let (o, m) ← call 148 (m.insert 7 "1")
  check 148 (o.beq (someRight (1, "1")))
  let (o, _) ← call 152 (m.insert 2 "3")
  check 152 (o.beq (someBoth (2, "2") (3, "3")))
  -- 189-237, 636-668, 1052-1093
  let e : CycleMap Nat String := CycleMap.withHasher (hasherOf _ _ b)
  check 1055 (e.len == 0 && e.isEmpty)
  let (_, m) ← call 192 (e.insert 1 "1")
  check 193 (m.arePaired 1 "1" && !m.arePaired 2 "1" && !m.arePaired 2 "2")
  check 218 (m.containsLeft 1 && !m.containsLeft 2)
  check 234 (m.containsRight "1" && !m.containsRight "2")
  check 639 (m.getLeft "1" == some 1 && m.getLeft "2" == none)
  check 665 (m.getRight 1 == some "1" && m.getRight 2 == none)
  check 1057 (m.len == 1 && !m.isEmpty)
  check 1091 m.clear.isEmpty
  -- 246-296
  let (o, m') ← call 250 (m.remove 1 "1")
  check 250 (o == some (1, "1"))
  check 251 ((← call 251 (m'.remove 1 "1")).1 == none)
  let (o, m') ← call 270 (m.removeViaLeft 1)
  check 270 (o == some (1, "1"))
  check 271 ((← call 271 (m'.removeViaLeft 1)).1 == none)
  let (o, m') ← call 293 (m.removeViaRight "1")
  check 293 (o == some (1, "1"))
  check 294 ((← call 294 (m'.removeViaRight "1")).1 == none)
  -- 331-349
  let m ← cycle b 100
  let (o, m) ← call 337 (m.swapLeft 101 102)
  check 337 (o.beq neither)
  let (o, m) ← call 341 (m.swapLeft 42 101)
  check 341 (o.beq (someLeft 42) && m.arePaired 101 "42")
  let (o, m) ← call 346 (m.swapLeft 84 0)
  check 346 (o.beq (someBoth 84 (0, "0")) && m.arePaired 0 "84")
  -- 397-411
  let m ← cycle b 100
  let (o, m) ← call 403 (m.swapLeftChecked 42 "42" 101)
  check 403 (o.beq (someLeft 42) && m.arePaired 101 "42")
  let (o, m) ← call 408 (m.swapLeftChecked 84 "85" 101)
  check 408 (o.beq neither && m.arePaired 84 "84")
  -- 425-439
  let m ← cycle b 100
  let (o, m) ← call 431 (m.swapLeftOrInsert 42 101 "42")
  check 431 (o.beq (someLeft 42) && m.arePaired 101 "42")
  let (o, m) ← call 436 (m.swapLeftOrInsert 102 103 "103")
  check 436 (o.beq neither && m.arePaired 103 "103")
  -- 481-499
  let m ← cycle b 100
  let (o, m) ← call 487 (m.swapRight "101" "102")
  check 487 (o.beq neither)
  let (o, m) ← call 491 (m.swapRight "42" "101")
  check 491 (o.beq (someLeft "42") && m.arePaired 42 "101")
  let (o, m) ← call 496 (m.swapRight "84" "0")
  check 496 (o.beq (someBoth "84" (0, "0")) && m.arePaired 84 "0")
  -- 548-562
  let m ← cycle b 100
  let (o, m) ← call 554 (m.swapRightChecked "42" 42 "101")
  check 554 (o.beq (someLeft "42") && m.arePaired 42 "101")
  let (o, m) ← call 559 (m.swapRightChecked "84" 85 "101")
  check 559 (o.beq neither && m.arePaired 84 "84")
  -- 578-592
  let m ← cycle b 100
  let (o, m) ← call 584 (m.swapRightOrInsert "42" "101" 42)
  check 584 (o.beq (someLeft "42") && m.arePaired 42 "101")
  let (o, m) ← call 589 (m.swapRightOrInsert "102" "103" 103)
  check 589 (o.beq neither && m.arePaired 103 "103")
  -- 780-795
  let (_, m) ← call 783 (e.insert 1 "1")
  let (_, m) ← call 784 (m.insert 2 "2")
  let cap := m.capacity
  let (out, m) ← call 787 (m.drainTake 1)
  check 788 (out.length == 1 && out.all fun (l, r) => (l == 1 || l == 2) && (r == "1" || r == "2"))
  check 792 m.isEmpty
  if caps then check 793 (m.capacity == cap)
  -- 818-829
  let m ← cycle b 100
  let (out, _, m) ← call 824 (m.drainFilterTake (fun (_ : Unit) l _ => (l % 2 == 1, ())) () 101)
  check 825 (out.all fun (l, _) => l % 2 == 1)
  check 828 (m.len == 50)
  -- 848-860
  let m ← cycle b 100
  let (_, m) ← call 854 (m.retain (fun (_ : Unit) l _ => (l % 2 == 0, ())) ())
  check 855 (m.len == 50)
  check 858 ((← call 857 m.iterList).all fun (l, _) => l % 2 == 0)

/-- `(0..n).map(|i| (i, i.to_string())).collect()` -/
def part (n : Nat) : T (PartialMap Nat String) :=
  call 0 (PartialMap.fromPairs (hasherOf _ _ b) ((List.range n).map fun i => (i, toString i)))

/-- the map of the examples at 293-309, 337-357 and 437-457 of `/repo/src/partial_cycle_map.rs` -/
def twoAndTwo : T (PartialMap Nat String) := do
  let m : PartialMap Nat String := PartialMap.withHasher (hasherOf _ _ b)
  let (_, m) ← call 296 (m.insertLeft 1)
  let (_, m) ← call 297 (m.insertLeft 2)
  let (_, m) ← call 298 (m.insertRight "1")
  let (_, m) ← call 299 (m.insertRight "2")
  return m

/-- fifty pairs and fifty unpaired left items (1387-1518) -/
def fifties : T (PartialMap Nat String) := do
  let m ← part b 50
  call 1391 (m.extend ((List.range 50).map fun i => someLeft (i + 50)))

/-- `/repo/src/partial_cycle_map.rs` -/
def partialDocs : T Unit := do
  -- 59-95
  let c : PartialMap String Nat ← call 68 (PartialMap.fromIter (hasherOf _ _ b)
    ((words.take 6).map (fun p => someBoth p.1 p.2) ++ (words.drop 6).map fun p => someLeft p.1))
  check 71 (c.lenLeft == 10)
  check 73 (c.lenRight == 6)
  check 81 (!c.containsRight 7)
  check 82 (c.getLeft 7 == none)
  check 83 (c.getRight "three" == some 3)
  check 86 (c.arePaired "four" 4)
  let (o, c) ← call 87 (c.removeRight 4)
  check 87 (o == some 4)
  let (ok, c) := c.unpair "three" 3
  check 88 ok
  check 89 (!c.arePaired "three" 3)
  let (ok, c) := c.pair "three" 3
  check 92 (ok && c.arePaired "three" 3)
  -- 141-161
  let m ← part b 5
  let (o, m) ← call 147 (m.insert 5 "5")
  check 147 (o.1.beq neither && o.2.beq neither)
  let (o, m) ← call 151 (m.insert 0 "6")
  check 151 (o.1.beq (someBoth 0 "0") && o.2.beq neither)
  let (o, m) ← call 155 (m.insert 7 "1")
  check 155 (o.1.beq neither && o.2.beq (someBoth 1 "1"))
  let (o, _) ← call 159 (m.insert 2 "3")
  check 159 (o.1.beq (someBoth 2 "2") && o.2.beq (someBoth 3 "3"))
  -- 203-219
  let m ← part b 5
  let (o, m) ← call 209 (m.insertLeft 5)
  check 209 (o.beq neither)
  let (o, m) ← call 213 (m.insertLeft 5)
  check 213 (o.beq (someLeft 5))
  let (o, _) ← call 217 (m.insertLeft 0)
  check 217 (o.beq (someBoth 0 "0"))
  -- 250-266
  let m ← part b 5
  let (o, m) ← call 256 (m.insertRight "5")
  check 256 (o.beq neither)
  let (o, m) ← call 260 (m.insertRight "5")
  check 260 (o.beq (someRight "5"))
  let (o, _) ← call 264 (m.insertRight "0")
  check 264 (o.beq (someBoth 0 "0"))
  -- 293-309
  let m ← twoAndTwo b
  check 302 (!m.arePaired 1 "1")
  let (ok, m) := m.pair 1 "1"
  check 303 (ok && m.arePaired 1 "1")
  check 307 (!(m.pair 1 "2").1)
  -- 337-357
  let m ← twoAndTwo b
  let (o, m) ← call 347 (m.pairForced 1 "1")
  check 348 (o.beq neither && m.arePaired 1 "1")
  let (o, m) ← call 352 (m.pairForced 1 "2")
  check 353 (o.beq (someRight "1") && m.arePaired 1 "2" && !m.arePaired 1 "1")
  -- 437-457
  let m ← twoAndTwo b
  let (o, m) ← call 447 (m.pairForcedRemove 1 "1")
  check 448 (o.beq neither && m.arePaired 1 "1")
  let (o, m) ← call 452 (m.pairForcedRemove 1 "2")
  check 453 (o.beq (someRight "1") && m.arePaired 1 "2" && !m.arePaired 1 "1")
  -- 534-549, 602-717
  let e : PartialMap Nat String := PartialMap.withHasher (hasherOf _ _ b)
  check 1864 (e.lenLeft == 0 && e.lenRight == 0 && e.isEmpty)
  let (_, p) ← call 537 (e.insert 1 "1")
  check 606 (p.arePaired 1 "1" && !p.arePaired 2 "1" && !p.arePaired 2 "2")
  check 1898 (p.lenLeft == 1 && !p.isEmpty && p.clear.isEmpty)
  let (_, pl) ← call 538 (p.insertLeft 2)
  check 632 (pl.containsLeft 1 && pl.containsLeft 2 && !pl.containsLeft 3)
  check 1868 (pl.lenLeft == 2)
  let (_, pr) ← call 649 (p.insertRight "2")
  check 650 (pr.containsRight "1" && pr.containsRight "2" && !pr.containsRight "3")
  check 1884 (pr.lenRight == 2)
  let (_, m) ← call 539 (pl.insertRight "2")
  let (ok, m) := m.unpair 1 "1"
  check 542 (ok && !m.arePaired 1 "1")
  check 546 (!m.arePaired 2 "2" && !(m.unpair 2 "2").1)
  let (o, m) ← call 667 (p.remove 1 "1")
  check 667 (o == some (1, "1") && (← call 668 (m.remove 1 "1")).1 == none)
  let (o, m) ← call 689 (pl.removeLeft 1)
  check 689 (o == some 1 && m.containsRight "1")
  let (o, m) ← call 713 (pl.removeViaLeft 1)
  check 713 (o.beq (someBoth 1 "1"))
  let (o, m) ← call 714 (m.removeViaLeft 2)
  check 714 (o.beq (someLeft 2))
  check 715 ((← call 715 (m.removeViaLeft 3)).1.beq neither)
  let (o, m) ← call 748 (pr.removeRight "1")
  check 748 (o == some "1" && m.containsLeft 1)
  let (o, m) ← call 771 (pr.removeViaRight "1")
  check 771 (o.beq (someBoth 1 "1"))
  let (o, m) ← call 772 (m.removeViaRight "2")
  check 772 (o.beq (someRight "2"))
  check 773 ((← call 773 (m.removeViaRight "3")).1.beq neither)
  check 1140 (pr.getLeft "1" == some 1 && pr.getLeft "2" == none && pr.getLeft "3" == none)
  check 1169 (pl.getRight 1 == some "1" && pl.getRight 2 == none && pl.getRight 3 == none)
  -- 826-841
  let (_, m) ← call 830 (p.insert 2 "2")
  let (_, m) ← call 831 (m.insertLeft 3)
  let (o, m) ← call 833 (m.swapLeft 1 0)
  check 833 (Partial.sameSwap o (someLeft 1))
  let (o, m) ← call 836 (m.swapLeft 2 3)
  check 836 (Partial.sameSwap o (someBoth 2 (someLeft 3)))
  let (o, _) ← call 839 (m.swapLeft 4 5)
  check 839 (Partial.sameSwap o neither)
  -- 894-906 and 1049-1061
  check 905 (Partial.sameSwap (← call 896 (e.swapLeftChecked 1 "1" 2)).1 neither)
  check 1060 (Partial.sameSwap (← call 1051 (e.swapRightChecked "1" 1 "2")).1 neither)
  -- 981-996
  let (_, m) ← call 985 (p.insert 2 "2")
  let (_, m) ← call 986 (m.insertRight "3")
  let (o, m) ← call 988 (m.swapRight "1" "0")
  check 988 (Partial.sameSwap o (someLeft "1"))
  let (o, m) ← call 991 (m.swapRight "2" "3")
  check 991 (Partial.sameSwap o (someBoth "2" (someRight "3")))
  let (o, _) ← call 994 (m.swapRight "4" "5")
  check 994 (Partial.sameSwap o neither)
  -- 1234-1293
  let m ← part b 5
  check 1243 (m.iterList.all fun o => !o.isNone)
  check 1290 m.iterUnpairedList.isEmpty
  -- 1345-1365
  let (_, m) ← call 1349 (p.insert 2 "2")
  let cap := m.capacityLeft
  let (out, m) ← call 1352 (m.drainTake 1)
  check 1354 (out.length == 1 && out.all fun o => o.beq (someBoth 1 "1") || o.beq (someBoth 2 "2"))
  check 1363 m.isEmpty
  if caps then check 1364 (m.capacityLeft == cap)
  -- 1387-1400
  let onlyLeft : Unit → OptionalPair Nat String → Bool × Unit := fun _ o =>
    (match o with | someLeft _ => true | _ => false, ())
  let m ← fifties b
  let (out, _, m) ← call 1394 (m.drainFilterTake onlyLeft () 151)
  check 1395 (out.all fun o => o.getLeft.isSome && o.getRight.isNone)
  check 1399 (m.lenLeft == 50)
  -- 1423-1433
  let m ← fifties b
  let (_, m) ← call 1430 (m.retain onlyLeft ())
  check 1432 (m.lenLeft == 50)
  -- 1475-1485
  let m ← fifties b
  let (_, m) ← call 1482 (m.retainPaired (fun (_ : Unit) l _ => (l % 2 == 0, ())) ())
  check 1484 (m.lenLeft == 75)
  -- 1508-1518
  let m ← fifties b
  let (_, m) ← call 1515 (m.retainUnpaired (fun (_ : Unit) o => (match o with | someLeft l => l % 2 == 0 | _ => true, ())) ())
  check 1517 (m.lenLeft == 75)

/-- `(0..n).map(|i| (i.to_string(), i)).collect()` -/
def group (n : Nat) : T (GroupMap String Nat) :=
  call 0 (GroupMap.fromIter (hasherOf _ _ b) ((List.range n).map fun i => (toString i, i)))

/-- fifty pairs and fifty lone right items (961-1004) -/
def fiftyFifty : T (GroupMap String Nat) := do
  let m ← group b 50
  call 965 (m.extendOpt ((List.range 50).map fun i => (none, i + 50)))

/-- `/repo/src/group_map.rs` -/
def groupDocs : T Unit := do
  -- 98-149
  let c : GroupMap String Nat ← call 108 (GroupMap.fromIter (hasherOf _ _ b)
    ((words.take 5).flatMap fun p => [p, (toString p.2, p.2)]))
  check 111 (c.lenLeft == 10)
  check 113 (c.lenRight == 5)
  check 121 (c.containsRight 0)
  check 122 (c.getRight "zero" == some 0)
  check 123 (c.getRight "0" == some 0)
  match ← call 124 (c.getLeftList 0) with
  | none => throw "assertion failed at line 125"
  | some ls => check 127 (ls.all fun l => l == "zero" || l == "0")
  let (_, c) ← call 131 (c.removeLeft "zero")
  check 132 (!c.containsLeft "zero")
  check 133 (c.containsLeft "0")
  check 135 ((c.getLeftIter 0).map PairLen == some 1)
  let (o, c) ← call 138 (c.removeRight 1)
  check 140 (o.map (·.1.length) == some 2)
  check 141 (!c.containsLeft "one" && !c.containsLeft "1" && !c.containsRight 1)
  let (ok, c) ← call 146 (c.pair "three" 4)
  check 146 (ok && c.arePaired "three" 4 && !c.arePaired "three" 3)
  -- 202-228 and 312-338
  let m ← group b 5
  check 207 (!m.containsLeft "5" && !m.containsRight 5)
  let m ← call 209 (m.insert "5" 5)
  check 210 (m.arePaired "5" 5)
  let m ← call 213 (m.insert "0" 10)
  check 214 (m.containsRight 0 && !m.arePaired "0" 0 && m.arePaired "0" 10)
  let m ← call 219 (m.insert "10" 0)
  check 220 (m.arePaired "10" 0)
  let m ← call 223 (m.insert "2" 4)
  check 224 (m.arePaired "2" 4 && m.arePaired "4" 4 && !m.arePaired "2" 2)
  -- 374-384
  let m ← group b 5
  let (o, m) ← call 380 (m.insertLeft "zero" 0)
  check 381 (o.isNone && m.arePaired "0" 0 && m.arePaired "zero" 0)
  -- 418-430
  let m : GroupMap Nat String ← call 421 (GroupMap.fromIter (hasherOf _ _ b) ((List.range 5).map fun i => (i, "X")))
  let (o, m) ← call 424 (m.insertRight "0")
  check 425 o.isNone
  let (o, _) ← call 428 (m.insertRight "X")
  check 429 (match o with
    | some (ls, r) => ls.length == 5 && sameSet ls (List.range 5) && r == "X"
    | none => false)
  -- 457-514
  let e : GroupMap Nat String := GroupMap.withHasher (hasherOf _ _ b)
  check 1183 (e.lenLeft == 0 && e.lenRight == 0 && e.isEmpty)
  let p ← call 460 (e.insert 1 "1")
  let (_, t) ← call 461 (p.insertLeft 2 "1")
  let m ← call 462 (t.swapRight "1" "2")
  check 464 (m.containsRight "1" && !m.isRightPaired "1" && m.arePaired 1 "2" && m.arePaired 2 "2")
  let (_, m) ← call 508 (t.swapRightRemove "1" "2")
  check 510 (!m.containsRight "1" && m.arePaired 1 "2" && m.arePaired 2 "2")
  -- 551-734
  let (_, q) ← call 555 (p.insertRight "2")
  let (ok, m) ← call 557 (q.pair 1 "2")
  check 557 (ok && m.arePaired 1 "2" && !m.arePaired 1 "1")
  check 602 (q.isRightPaired "1" && !q.isRightPaired "2")
  check 622 (p.arePaired 1 "1")
  check 646 (p.containsLeft 1 && !p.containsLeft 2)
  check 662 (q.containsRight "1" && q.containsRight "2" && !q.containsRight "3")
  let (o, m) ← call 683 (t.remove 1 "1")
  check 683 (match o with
    | some (ls, r) => ls.length == 2 && sameSet ls [1, 2] && r == "1"
    | none => false)
  check 684 ((← call 684 (m.remove 1 "1")).1.isNone)
  let (o, m) ← call 702 (p.removeLeft 1)
  check 702 (o == some 1 && (← call 703 (m.removeLeft 2)).1 == none)
  let (_, m) ← call 730 (t.insertRight "2")
  let (o, m) ← call 731 (m.removeRight "1")
  check 731 (match o with
    | some (ls, r) => ls.length == 2 && sameSet ls [1, 2] && r == "1"
    | none => false)
  check 732 ((← call 732 (m.removeRight "2")).1 == some ([], "2"))
  -- 774-786
  check 780 (match ← call 778 (t.getLeftList "1") with
    | some ls => ls.length == 2 && ls.all (fun v => v == 1 || v == 2)
    | none => false)
  -- 804-811
  check 808 (q.getRight 1 == some "1" && q.getRight 2 == none)
  -- 849-906
  let m ← group b 5
  let (_, m) ← call 852 (m.insertRight 5)
  check 856 ((← call 854 m.iterList).all fun (l, r) => if l.isSome then r != 5 else r == 5)
  check 881 ((← call 880 m.iterPairedList).all fun (_, r) => r != 5)
  check 903 (m.iterUnpairedList == [5])
  -- 961-971
  let m ← fiftyFifty b
  let (_, m) ← call 967 (m.retainUnpaired (fun (_ : Unit) r => (r % 2 == 0, ())) ())
  check 968 (m.lenLeft == 50 && m.lenRight == 75)
  -- 994-1004
  let m ← fiftyFifty b
  let (_, m) ← call 1000 (m.retainPaired (fun (_ : Unit) _ r => (r % 2 == 0, ())) ())
  check 1001 (m.lenLeft == 25 && m.lenRight == 100)
  -- 1180-1243
  check 1187 (q.lenLeft == 1 && q.lenRight == 2 && !q.isEmpty && q.clear.isEmpty)
  let (_, m) ← call 1221 (e.insertRight "1")
  check 1222 (m.lenLeft == 0 && m.lenRight == 1 && !m.isEmpty)
where
  /-- `len` of the iterator of a group -/
  PairLen : GroupMap.PairIter → Nat := fun it => it.len

/-- the examples about capacities: `/repo/src/cycle_map.rs:886-921`, `/repo/src/partial_cycle_map.rs:1566-1625` -/
def capacityDocs : T Unit := do
  let m : CycleMap Nat Nat := CycleMap.withCapacityAndHasher 100 (hasherOf _ _ b)
  let (_, m) ← call 890 (m.insert 1 2)
  let (_, m) ← call 891 (m.insert 3 4)
  check 892 (m.capacity ≥ 100)
  check 894 ((m.shrinkTo 10).capacity ≥ 10)
  check 896 ((m.shrinkTo 0).capacity ≥ 2)
  check 898 (((m.shrinkTo 0).shrinkTo 10).capacity ≥ 2)
  check 919 (m.shrinkToFit.capacity ≥ 2)
  let m : PartialMap Nat Nat := PartialMap.withCapacityAndHasher 100 (hasherOf _ _ b)
  let (_, m) ← call 1570 (m.insert 1 2)
  let (_, m) ← call 1571 (m.insert 3 4)
  check 1572 (m.capacityLeft ≥ 100 && m.capacityRight ≥ 100)
  check 1574 ((m.shrinkToLeft 10).capacityLeft ≥ 10)
  check 1576 ((m.shrinkToLeft 0).capacityLeft ≥ 2)
  check 1600 ((m.shrinkToLeft 0).capacityRight ≥ 10)
  check 1623 (m.shrinkToFit.capacityLeft ≥ 2)
  let m : GroupMap Nat String := GroupMap.withCapacityAndHasher 100 (hasherOf _ _ b)
  check 1157 (m.capacityLeft ≥ 100 && m.capacityRight ≥ 100)

def all : T Unit := do
  cycleDocs caps b; partialDocs caps b; groupDocs b
  if caps then capacityDocs b

#guard (@all tidyRaw true true).isOk
#guard (@all tidyRaw true false).isOk
#guard (@all messyRaw false true).isOk
#guard (@all messyRaw false false).isOk
#guard (@all patchyRaw false true).isOk
#guard (@all patchyRaw false false).isOk

end Verif.Tests.Docs
