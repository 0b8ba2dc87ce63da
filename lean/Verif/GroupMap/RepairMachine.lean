import Verif.GroupMap.Repair
import Verif.GroupMap.Machine
/-! The API of `GroupMap` with the calls of `Verif.GroupMap.Repair` in place of those that do not do what is documented, and what the
documentation says of every call.  None of this is in /repo (see `Repair`); C148 (`Verif.Props.RepairMachineGroup`) proves that the one does the other. -/
namespace Verif.GroupMap.Repair
open GroupSpec
open CycleSpec (split)

variable [RawImpl] {L R : Type} [BEq L] [BEq R]

/-- `Extend<(Option<L>, R)>` (1250-1266) with the `insert` above -/
def extendOpt (m : GroupMap L R) : List (Option L × R) → Res (GroupMap L R)
  | [] => .ok m
  | (some l, r) :: rest => do
    let m ← insert m l r
    extendOpt m rest
  | (none, r) :: rest => do
    let (_, m) ← m.insertRight r
    extendOpt m rest

/-- `Extend<(L, R)>` (1268-1280) with the `insert` above -/
def extend (m : GroupMap L R) : List (L × R) → Res (GroupMap L R)
  | [] => .ok m
  | (l, r) :: rest => do
    let m ← insert m l r
    extend m rest

/-- a call (group_map.rs:124-1304), repaired if it has to be -/
def exec (m : GroupMap L R) : Op L R → Res (Out L R × GroupMap L R)
  | .insert l r => do let m ← insert m l r; return (.unit, m)
  | .swapRight old new => do let m ← swapRight m old new; return (.unit, m)
  | .swapRightRemove old new => do let (o, m) ← swapRightRemove m old new; return (.right o, m)
  | .retainPaired _ f s => do let (_, m) ← retainPaired m f s; return (.unit, m)
  | .retainUnpaired _ f s => do let (_, m) ← retainUnpaired m f s; return (.unit, m)
  | .extend xs => do return (.unit, ← extend m xs)
  | .extendOpt xs => do return (.unit, ← extendOpt m xs)
  | op => m.exec op

/-- a history of calls: the results, and the map at the end -/
def run (m : GroupMap L R) : List (Op L R) → Res (List (Out L R) × GroupMap L R)
  | [] => .ok ([], m)
  | op :: ops => do
    let (o, m) ← exec m op
    let (os, m) ← run m ops
    return (o :: os, m)

/-- What the documentation says a call may return, and leave.  Where `GroupMap.Step` says what is documented, that is `GroupMap.Step`.
A swap hands the left items of `old` over to `new`; what belonged to `new` is gone, as with `insert_right`. -/
def Step (c : Contents L R) : Op L R → Out L R → Contents L R → Prop
  | .swapRight old new, o, c' => o = .unit ∧ c' =
      if c.rights.any (old == ·) && old == new then c
      else ⟨new :: c.rights.filter fun b => !(new == b),
        (c.pairs.filter fun p => !(new == p.2)).map fun p => if old == p.2 then (p.1, new) else p⟩
  | .swapRightRemove old new, o, c' => o = .right (c.rights.find? (old == ·)) ∧ c' =
      ⟨new :: c.rights.filter fun b => !(old == b) && !(new == b),
        (c.pairs.filter fun p => old == p.2 || !(new == p.2)).map fun p => if old == p.2 then (p.1, new) else p⟩
  | .retainPaired _ f s, o, c' => ∃ d, d.Perm c.pairs ∧ o = .unit ∧ c' = { c with pairs := (split (fun s p => f s p.1 p.2) d s).1 }
  | .retainUnpaired _ f s, o, c' => ∃ d, d.Perm (lone c) ∧ o = .unit ∧ c' = { c with rights := (split f d s).1 ++ c.rights.filter (hasGroup c) }
  | op, o, c' => GroupMap.Step c op o c'

/-- a history on the lists -/
def Steps (c : Contents L R) : List (Op L R) → List (Out L R) → Contents L R → Prop
  | [], os, c' => os = [] ∧ c' = c
  | op :: ops, os, c' => ∃ o os' c₁, os = o :: os' ∧ Step c op o c₁ ∧ Steps c₁ ops os' c'

end Verif.GroupMap.Repair

namespace Verif.GroupMap

/-- `Clone` of an item gives an equal item (what the documentation of `Clone` asks for) -/
def Op.LawfulClone {L R : Type} [BEq L] [BEq R] : Op L R → Prop
  | .clone cl cr => (∀ x, (cl x == x) = true) ∧ (∀ x, (cr x == x) = true)
  | _ => True

end Verif.GroupMap
