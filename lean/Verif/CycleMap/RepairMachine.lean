import Verif.CycleMap.Repair
import Verif.CycleMap.Machine
/-! The API of `CycleMap` with the calls of `Verif.CycleMap.Repair` in place of those that do not do what is documented, and what the
documentation says of every call.  None of this is in /repo (see `Repair`); C148 (`Verif.Props.RepairMachine`) proves that the one does the other. -/
namespace Verif.CycleMap.Repair
open CycleSpec OptionalPair

variable [RawImpl] {L R : Type} [BEq L] [BEq R]

/-- a call (cycle_map.rs:139-1097), repaired if it has to be -/
def exec (m : CycleMap L R) : Op L R → Res (Out L R × CycleMap L R)
  | .swapLeft old new => do let (o, m) ← swapLeft m old new; return (.swappedLeft o, m)
  | .swapLeftOrInsert old new r => do let (o, m) ← swapLeftOrInsert m old new r; return (.swappedLeft o, m)
  | .swapRight old new => do let (o, m) ← swapRight m old new; return (.swappedRight o, m)
  | .swapRightOrInsert old new l => do let (o, m) ← swapRightOrInsert m old new l; return (.swappedRight o, m)
  | .drain n => do let (ps, m) ← drainTake m n; return (.pairs ps, m)
  | op => m.exec op

/-- a history of calls: the results, and the map at the end -/
def run (m : CycleMap L R) : List (Op L R) → Res (List (Out L R) × CycleMap L R)
  | [] => .ok ([], m)
  | op :: ops => do
    let (o, m) ← exec m op
    let (os, m) ← run m ops
    return (o :: os, m)

/-- What the documentation says a call may return, and leave.  Where the call is not changed, that is `CycleMap.Step`. -/
def Step (c : List (L × R)) : Op L R → Out L R → List (L × R) → Prop
  | .swapLeft old new, o, c' =>
      if c.any (fun p => old == p.1) then CycleMap.Step c (.swapLeft old new) o c' else o = .swappedLeft neither ∧ c' = c
  | .swapLeftOrInsert old new r, o, c' =>
      if c.any (fun p => old == p.1) then CycleMap.Step c (.swapLeft old new) o c'
      else c' = (new, r) :: c.filter (fun p => !(new == p.1) && !(r == p.2)) ∧
        o = .swappedLeft (match c.find? (fun p => new == p.1), c.find? (fun p => r == p.2 && !(new == p.1)) with
          | none, none => neither
          | some p, none => someRight p
          | none, some p => someRight p
          | some p, some q => someBoth p.1 q)
  | .swapRight old new, o, c' =>
      if c.any (fun p => old == p.2) then CycleMap.Step c (.swapRight old new) o c' else o = .swappedRight neither ∧ c' = c
  | .swapRightOrInsert old new l, o, c' =>
      if c.any (fun p => old == p.2) then CycleMap.Step c (.swapRight old new) o c'
      else c' = (l, new) :: c.filter (fun p => !(l == p.1) && !(new == p.2)) ∧
        o = .swappedRight (match c.find? (fun p => l == p.1), c.find? (fun p => new == p.2 && !(l == p.1)) with
          | none, none => neither
          | some p, none => someRight p
          | none, some p => someRight p
          | some p, some q => someBoth q.2 p)
  | .drain n, o, c' => ∃ d : List (L × R), d.Perm c ∧ o = .pairs (d.take n) ∧ c' = []
  | op, o, c' => CycleMap.Step c op o c'

/-- a history on a list of pairs -/
def Steps (c : List (L × R)) : List (Op L R) → List (Out L R) → List (L × R) → Prop
  | [], os, c' => os = [] ∧ c' = c
  | op :: ops, os, c' => ∃ o os' c₁, os = o :: os' ∧ Step c op o c₁ ∧ Steps c₁ ops os' c'

end Verif.CycleMap.Repair

namespace Verif.CycleMap

/-- `Clone` of an item gives an equal item (what the documentation of `Clone` asks for) -/
def Op.LawfulClone {L R : Type} [BEq L] [BEq R] : Op L R → Prop
  | .clone cl cr => (∀ x, (cl x == x) = true) ∧ (∀ x, (cr x == x) = true)
  | _ => True

end Verif.CycleMap
