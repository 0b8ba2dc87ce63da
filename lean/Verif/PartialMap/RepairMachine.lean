import Verif.PartialMap.Repair
import Verif.PartialMap.Machine
/-! The API of `PartialCycleMap` with the calls of `Verif.PartialMap.Repair` in place of those that do not do what is documented, and what the
documentation says of every call.  None of this is in /repo (see `Repair`); C148 (`Verif.Props.RepairMachinePartial`) proves that the one does the other. -/
namespace Verif.PartialMap.Repair
open PartialSpec OptionalPair
open CycleSpec (split)

variable [RawImpl] {L R : Type} [BEq L] [BEq R]

/-- a call (partial_cycle_map.rs:142-1922), repaired if it has to be -/
def exec (m : PartialMap L R) : Op L R → Res (Out L R × PartialMap L R)
  | .unpair l r => .ok (.bool (unpair m l r).1, (unpair m l r).2)
  | .swapLeft old new => do let (o, m) ← swapLeft m old new; return (.swappedLeft o, m)
  | .swapLeftOrInsert old new r => do let (o, m) ← swapLeftOrInsert m old new r; return (.swappedLeft o, m)
  | .swapRight old new => do let (o, m) ← swapRight m old new; return (.swappedRight o, m)
  | .swapRightOrInsert old new l => do let (o, m) ← swapRightOrInsert m old new l; return (.swappedRight o, m)
  | .iter => .ok (.entries (iterList m), m)
  | .drain n => do let (ps, m) ← drainTake m n; return (.entries ps, m)
  | .drainFilter _ f s n => do let (ps, _, m) ← drainFilterTake m f s n; return (.entries ps, m)
  | .retain _ f s => do let (_, m) ← retain m f s; return (.unit, m)
  | .retainPaired _ f s => do let (_, m) ← retainPaired m f s; return (.unit, m)
  | .retainUnpaired _ f s => do let (_, m) ← retainUnpaired m f s; return (.unit, m)
  | op => m.exec op

/-- a history of calls: the results, and the map at the end -/
def run (m : PartialMap L R) : List (Op L R) → Res (List (Out L R) × PartialMap L R)
  | [] => .ok ([], m)
  | op :: ops => do
    let (o, m) ← exec m op
    let (os, m) ← run m ops
    return (o :: os, m)

/-- What the documentation says a call may return, and leave.  Where `PartialMap.Step` says what is documented, that is `PartialMap.Step`. -/
def Step (c : List (OptionalPair L R)) : Op L R → Out L R → List (OptionalPair L R) → Prop
  | .swapLeft old new, o, c' =>
      if c.any (hasL old) then PartialMap.Step c (.swapLeft old new) o c' else o = .swappedLeft neither ∧ c' = c
  | .swapLeftOrInsert old new r, o, c' =>
      if c.any (hasL old) then PartialMap.Step c (.swapLeft old new) o c'
      else c' = someBoth new r :: c.filter (fun e => !hasL new e && !hasR r e) ∧
        o = .swappedLeft (match c.find? (hasL new), c.find? (fun e => hasR r e && !hasL new e) with
          | none, none => neither
          | some e, none => someRight e
          | none, some e => someRight e
          | some e, some e' => ofPair (leftOf e, some e'))
  | .swapRight old new, o, c' =>
      if c.any (hasR old) then PartialMap.Step c (.swapRight old new) o c' else o = .swappedRight neither ∧ c' = c
  | .swapRightOrInsert old new l, o, c' =>
      if c.any (hasR old) then PartialMap.Step c (.swapRight old new) o c'
      else c' = someBoth l new :: c.filter (fun e => !hasL l e && !hasR new e) ∧
        o = .swappedRight (match c.find? (hasL l), c.find? (fun e => hasR new e && !hasL l e) with
          | none, none => neither
          | some e, none => someRight e
          | none, some e => someRight e
          | some e, some e' => ofPair (rightOf e', some e))
  | .iter, o, c' => ∃ d, d.Perm c ∧ o = .entries d ∧ c' = c
  | .drain n, o, c' => ∃ d : List (OptionalPair L R), d.Perm c ∧ o = .entries (d.take n) ∧ c' = []
  | .drainFilter _ f s n, o, c' => ∃ d, d.Perm c ∧ o = .entries ((split f d s).1.take n) ∧ c' = (split f d s).2.1
  | .retain _ f s, o, c' => ∃ d, d.Perm c ∧ o = .unit ∧ c' = (split f d s).1
  | .retainPaired _ f s, o, c' => ∃ d, d.Perm (c.filterMap pairOf) ∧ o = .unit ∧
      c' = (split (fun s p => f s p.1 p.2) d s).1.map (fun p => someBoth p.1 p.2) ++ c.filter fun e => !isPair e
  | .retainUnpaired _ f s, o, c' => ∃ d, d.Perm (c.filter fun e => !isPair e) ∧ o = .unit ∧ c' = (split f d s).1 ++ c.filter isPair
  | op, o, c' => PartialMap.Step c op o c'

/-- a history on a list of entries -/
def Steps (c : List (OptionalPair L R)) : List (Op L R) → List (Out L R) → List (OptionalPair L R) → Prop
  | [], os, c' => os = [] ∧ c' = c
  | op :: ops, os, c' => ∃ o os' c₁, os = o :: os' ∧ Step c op o c₁ ∧ Steps c₁ ops os' c'

end Verif.PartialMap.Repair

namespace Verif.PartialMap

/-- `Clone` of an item gives an equal item (what the documentation of `Clone` asks for) -/
def Op.LawfulClone {L R : Type} [BEq L] [BEq R] : Op L R → Prop
  | .clone cl cr => (∀ x, (cl x == x) = true) ∧ (∀ x, (cr x == x) = true)
  | _ => True

end Verif.PartialMap
