import Verif.DropEnd
import Verif.CycleMap.Model
/-! What the calls of `CycleMap` that do not do what is documented could be replaced by.  None of this is in /repo: every definition says which
lines of `cycle_map.rs` it changes, and how.  C133 (`Verif.Props.Repair`) proves that the documentation is true of these. -/
namespace Verif.CycleMap.Repair
open OptionalPair

variable [RawImpl] {L R τ : Type} [BEq L] [BEq R]

/-- `swap_left` (350-389) with a new first line: `if !self.contains_left(old) { return Neither; }` -/
def swapLeft (m : CycleMap L R) (old new : L) : Res (OptionalPair L (L × R) × CycleMap L R) :=
  if !m.containsLeft old then .ok (neither, m) else m.swapLeft old new

/-- `swap_right` (500-540) with a new first line: `if !self.contains_right(old) { return Neither; }` -/
def swapRight (m : CycleMap L R) (old new : R) : Res (OptionalPair R (L × R) × CycleMap L R) :=
  if !m.containsRight old then .ok (neither, m) else m.swapRight old new

/-- `swap_left_or_insert` (442-456), where `map_left(|(l, _)| l)` of line 454 is replaced by a `match`: a pair displaced by `new` alone is
handed back whole -/
def swapLeftOrInsert (m : CycleMap L R) (old new : L) (toInsert : R) : Res (OptionalPair L (L × R) × CycleMap L R) :=
  if (m.left.get (m.hb.hl old) (equivalentKey old)).isSome then m.swapLeft old new
  else do
    match ← m.insert new toInsert with
    | (neither, m) => return (neither, m)
    | (someLeft p, m) => return (someRight p, m)
    | (someRight p, m) => return (someRight p, m)
    | (someBoth p q, m) => return (someBoth p.1 q, m)

/-- `swap_right_or_insert` (595-619), where `unreachable!` of line 615 is replaced by the cases that do occur -/
def swapRightOrInsert (m : CycleMap L R) (old new : R) (toInsert : L) : Res (OptionalPair R (L × R) × CycleMap L R) :=
  if (m.right.get (m.hb.hr old) (equivalentKey old)).isSome then m.swapRight old new
  else do
    match ← m.insert toInsert new with
    | (neither, m) => return (neither, m)
    | (someRight p, m) => return (someRight p, m)
    | (someLeft p, m) => return (someRight p, m)
    | (someBoth p q, m) => return (someBoth q.2 p, m)

/-- `drain` (796-802), whose `DrainIter` (1309-1312) has a `Drop`: `fn drop(&mut self) { self.right_ref.clear() }` -/
def drainTake (m : CycleMap L R) (n : Nat) : Res (List (L × R) × CycleMap L R) := do
  let (ps, m) ← m.drainTake n
  return (ps, { m with right := m.right.clear })

/-- `clear` (1094-1097) with a guard that clears the right table when it is dropped: also if the destructor of a left item panics.  (Two panics
abort the process.) -/
def clearD (m : CycleMap L R) (d : τ → L ⊕ R → Bool × τ) (t : τ) : Ending × τ × CycleMap L R :=
  match dropTwo d (m.left.toList.map fun x => .inl x.value) (m.right.toList.map fun x => .inr x.value) t with
  | (e, t) => (e, t, { m with left := m.left.clear, right := m.right.clear })

end Verif.CycleMap.Repair
