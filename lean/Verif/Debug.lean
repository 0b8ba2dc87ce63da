import Verif.CycleMap.Model
import Verif.PartialMap.Model
import Verif.GroupMap.Model
/-
Model of the `Debug` implementations with the format `{:?}`.  How the items of the two sides are printed (their own
`Debug`) is a parameter.  The helpers `debug_set`, `debug_list`, tuples and `Option` belong to the standard library;
they are modelled by what they print without the `#` flag.
-/
namespace Verif

namespace Fmt

/-- `Formatter::debug_set().entries(..).finish()` -/
def debugSet (xs : List String) : String := "{" ++ ", ".intercalate xs ++ "}"

/-- `Formatter::debug_list().entries(..).finish()` -/
def debugList (xs : List String) : String := "[" ++ ", ".intercalate xs ++ "]"

/-- `Debug for (A, B)` -/
def pair (a b : String) : String := "(" ++ a ++ ", " ++ b ++ ")"

/-- `Debug for Option<A>` -/
def option : Option String → String
  | none => "None"
  | some a => "Some(" ++ a ++ ")"

end Fmt
open Fmt

/-- `Debug for OptionalPair` — optionals.rs:163-185 -/
def OptionalPair.debug {L R : Type} (dl : L → String) (dr : R → String) : OptionalPair L R → String
  | .neither => "None"
  | .someLeft l => "SomeLeft( " ++ dl l ++ " )"
  | .someRight r => "SomeRight( " ++ dr r ++ " )"
  | .someBoth l r => "SomeBoth( " ++ dl l ++ ", " ++ dr r ++ " )"

variable [RawImpl] {L R : Type} [BEq L] [BEq R]

namespace CycleMap

/-- `Debug for CycleMap` — cycle_map.rs:1125-1134 -/
def debug (m : CycleMap L R) (dl : L → String) (dr : R → String) : Res String := do
  return debugSet ((← m.iterList).map fun p => Fmt.pair (dl p.1) (dr p.2))

/-- `Clone for Iter` — cycle_map.rs:1190-1197 -/
def Iter.clone (it : Iter L) : Iter L := ⟨it.todo⟩

/-- `Debug for Iter` — cycle_map.rs:1199-1208 -/
def Iter.debug (it : Iter L) (m : CycleMap L R) (dl : L → String) (dr : R → String) : Res String := do
  return debugList ((← Iter.collect m it.clone.todo).map fun p => Fmt.pair (dl p.1) (dr p.2))

/-- `Debug for SingleIter` — cycle_map.rs:1267-1274, of `iter_left` after `n` calls of `next` -/
def debugLeftIter (m : CycleMap L R) (n : Nat) (dl : L → String) : String := debugList ((m.iterLeft.drop n).map dl)

/-- `Debug for SingleIter` — cycle_map.rs:1267-1274, of `iter_right` after `n` calls of `next` -/
def debugRightIter (m : CycleMap L R) (n : Nat) (dr : R → String) : String := debugList ((m.iterRight.drop n).map dr)

/-- `Debug for MappingPair` — cycle_map.rs:1470-1478 -/
def MappingPair.debug {T : Type} (d : T → String) (x : MappingPair T) : String :=
  "MappingPair { value: " ++ d x.value ++ ", hash: " ++ toString x.hash.toNat ++ ", id: " ++ toString x.id ++ " }"

end CycleMap

namespace PartialMap

/-- `Debug for PartialCycleMap` — partial_cycle_map.rs:1729-1738 -/
def debug (m : PartialMap L R) (dl : L → String) (dr : R → String) : String :=
  debugSet (m.iterList.map (·.debug dl dr))

/-- `Clone for Iter` — partial_cycle_map.rs:1994-2001 -/
def Iter.clone (it : Iter L) : Iter L := ⟨it.todo⟩

/-- `Debug for Iter` — partial_cycle_map.rs:2003-2012 -/
def Iter.debug (it : Iter L) (m : PartialMap L R) (dl : L → String) (dr : R → String) : String :=
  debugList ((Iter.collect m it.clone.todo).map (·.debug dl dr))

/-- `Clone for PairedIter` — partial_cycle_map.rs:2064-2072 -/
def PairedIter.clone (it : PairedIter L R) : PairedIter L R := ⟨it.todo⟩

/-- `Debug for PairedIter` — partial_cycle_map.rs:2074-2083 -/
def PairedIter.debug (it : PairedIter L R) (m : PartialMap L R) (dl : L → String) (dr : R → String) : Res String := do
  let (ps, _) ← PairedIter.take m (it.clone.todo.length + 1) it.clone
  return debugList (ps.map fun p => Fmt.pair (dl p.1) (dr p.2))

/-- `Clone for UnpairedIter` — partial_cycle_map.rs:2141-2149 -/
def UnpairedIter.clone (it : UnpairedIter L R) : UnpairedIter L R := ⟨it.todoL, it.todoR⟩

/-- `Debug for UnpairedIter` — partial_cycle_map.rs:2151-2160 -/
def UnpairedIter.debug (it : UnpairedIter L R) (dl : L → String) (dr : R → String) : String :=
  debugList ((UnpairedIter.take (it.clone.todoL.length + it.clone.todoR.length + 1) it.clone).1.map (·.debug dl dr))

/-- `Debug for SingleIter` — partial_cycle_map.rs:2229-2236, of `iter_left` after `n` calls of `next` -/
def debugLeftIter (m : PartialMap L R) (n : Nat) (dl : L → String) : String := debugList ((m.iterLeft.drop n).map dl)

/-- `Debug for SingleIter` — partial_cycle_map.rs:2229-2236, of `iter_right` after `n` calls of `next` -/
def debugRightIter (m : PartialMap L R) (n : Nat) (dr : R → String) : String := debugList ((m.iterRight.drop n).map dr)

/-- `Debug for MappingPair` — partial_cycle_map.rs:2486-2494 -/
def MappingPair.debug {T : Type} (d : T → String) (x : MappingPair T) : String :=
  "MappingPair { value: " ++ d x.value ++ ", hash: " ++ Fmt.option (x.hash.map fun h => toString h.toNat) ++
    ", id: " ++ toString x.id ++ " }"

end PartialMap

namespace GroupMap

/-- how an item of `Iter` is printed: a pair of an `Option` and a right item -/
def debugEntry (dl : L → String) (dr : R → String) (e : Option L × R) : String :=
  Fmt.pair (Fmt.option (e.1.map dl)) (dr e.2)

/-- `Debug for GroupMap` — group_map.rs:1050-1059 -/
def debug (m : GroupMap L R) (dl : L → String) (dr : R → String) : Res String := do
  return debugSet ((← m.iterList).map (debugEntry dl dr))

/-- `Debug for Iter` — group_map.rs:1323-1332 -/
def Iter.debug (it : Iter R) (m : GroupMap L R) (dl : L → String) (dr : R → String) : Res String := do
  let (xs, _) ← Iter.take m (it.clone.fuel + 1) it.clone
  return debugList (xs.map (debugEntry dl dr))

/-- `Clone for PairedIter` — group_map.rs:1409-1416 -/
def PairedIter.clone (it : PairedIter L) : PairedIter L := ⟨it.todo⟩

/-- `Debug for PairedIter` — group_map.rs:1418-1427 -/
def PairedIter.debug (it : PairedIter L) (m : GroupMap L R) (dl : L → String) (dr : R → String) : Res String := do
  let (xs, _) ← PairedIter.take m (it.clone.todo.length + 1) it.clone
  return debugList (xs.map fun p => Fmt.pair (dl p.1) (dr p.2))

/-- `Clone for UnpairedIter` — group_map.rs:1482-1489 -/
def UnpairedIter.clone (it : UnpairedIter R) : UnpairedIter R := ⟨it.todo⟩

/-- `Debug for UnpairedIter` — group_map.rs:1491-1500 -/
def UnpairedIter.debug (it : UnpairedIter R) (dr : R → String) : String :=
  debugList ((UnpairedIter.take (it.clone.todo.length + 1) it.clone).1.map dr)

/-- `Debug for LeftIter` — group_map.rs:1558-1565, after `n` calls of `next` -/
def debugLeftIter (m : GroupMap L R) (n : Nat) (dl : L → String) : String := debugList ((m.iterLeft.drop n).map dl)

/-- `Debug for RightIter` — group_map.rs:1601-1608, after `n` calls of `next` -/
def debugRightIter (m : GroupMap L R) (n : Nat) (dr : R → String) : String := debugList ((m.iterRight.drop n).map dr)

/-- `Clone for PairIter` — group_map.rs:1636-1644 -/
def PairIter.clone (it : PairIter) : PairIter := ⟨it.todo⟩

/-- `Debug for PairIter` — group_map.rs:1646-1653 -/
def PairIter.debug (it : PairIter) (m : GroupMap L R) (dl : L → String) : Res String := do
  let (ls, _) ← PairIter.take m (it.clone.todo.length + 1) it.clone
  return debugList (ls.map dl)

/-- `Debug for LeftItem` — group_map.rs:1719-1727 -/
def LeftItem.debug {T : Type} (d : T → String) (x : LeftItem T) : String :=
  "LeftItem { value: " ++ d x.value ++ ", hash: " ++ toString x.hash.toNat ++ ", id: " ++ toString x.id ++ " }"

/-- `Debug for RightItem` — group_map.rs:1760-1768; the set of pairs is printed in its order of iteration -/
def RightItem.debug {T : Type} (d : T → String) (x : RightItem T) : String :=
  "RightItem { value: " ++ d x.value ++ ", id: " ++ toString x.id ++ ", pairs: " ++
    debugSet (x.pairs.entries.map fun p => Fmt.pair (toString p.1.toNat) ("ID(" ++ toString p.2 ++ ")")) ++ " }"

end GroupMap
end Verif
