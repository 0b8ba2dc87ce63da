import Verif.DropEnd
import Verif.GroupMap.Model
/-! What the calls of `GroupMap` that do not do what is documented could be replaced by.  None of this is in /repo: every definition says which
lines of `group_map.rs` it changes, and how.  C135 (`Verif.Props.RepairGroup`) proves that the documentation is true of these. -/
namespace Verif.GroupMap.Repair
open CycleMap (Ending)

variable [RawImpl] {L R τ : Type} [BEq L] [BEq R]

/-- `insert` (231-303) with a new first line: `if self.are_paired(&left, &right) { return; }` -/
def insert (m : GroupMap L R) (left : L) (right : R) : Res (GroupMap L R) :=
  if m.arePaired left right then .ok m else m.insert left right

/-- the loops 489-494 and 536-541, which now also set `r_id` of the left item to the id of the new right item -/
def rehashAll (newHash : UInt64) (newId : Nat) (left : RawTable (LeftItem L)) : List (UInt64 × Nat) → Res (RawTable (LeftItem L))
  | [] => .ok left
  | (h, i) :: rest =>
    match left.getMut h (leftWithLeftId i) with
    | none => .error .unwrapNone
    | some (l, writeL) => rehashAll newHash newId (writeL { l with hash := newHash, rid := newId }) rest

/-- `swap_right` (472-497) with this loop -/
def swapRightIds (m : GroupMap L R) (old new : R) : Res (GroupMap L R) :=
  match m.right.getMut (m.hb.hr old) (equivalentKeyRight old) with
  | none => do let (_, m) ← m.insertRight new; return m
  | some (r, writeR) => do
    let set := r.pairs.collect
    let right' := writeR { r with pairs := r.pairs.clear }
    let newHash := m.hb.hr new
    let item : RightItem R := { value := new, pairs := set, id := m.rightCounter }
    let left' ← rehashAll newHash m.rightCounter m.left set.entries
    return { m with left := left', right := right'.insert newHash item (·.hashWith m.hb.hr), rightCounter := m.rightCounter + 1 }

/-- … and with two new first lines: `if old == &new && self.contains_right(old) { return; }` and `self.remove_right(&new);` (as `insert_right` does) -/
def swapRight (m : GroupMap L R) (old new : R) : Res (GroupMap L R) :=
  if old == new && m.containsRight old then .ok m
  else do
    let (_, m) ← m.removeRight new
    swapRightIds m old new

/-- `swap_right_remove` (515-545) with this loop -/
def swapRightRemoveIds (m : GroupMap L R) (old new : R) : Res (Option R × GroupMap L R) :=
  match m.right.removeEntry (m.hb.hr old) (equivalentKeyRight old) with
  | none => do let (_, m) ← m.insertRight new; return (none, m)
  | some (r, right') => do
    let set := r.pairs.collect
    let newHash := m.hb.hr new
    let item : RightItem R := { value := new, pairs := set, id := m.rightCounter }
    let left' ← rehashAll newHash m.rightCounter m.left set.entries
    return (some r.value, { m with left := left', right := right'.insert newHash item (·.hashWith m.hb.hr), rightCounter := m.rightCounter + 1 })

/-- … and with a new first line: `if old != &new { self.remove_right(&new); }` -/
def swapRightRemove (m : GroupMap L R) (old new : R) : Res (Option R × GroupMap L R) :=
  if old == new then swapRightRemoveIds m old new
  else do
    let (_, m) ← m.removeRight new
    swapRightRemoveIds m old new

/-- second loop of `retain_paired` (985-987), which now also takes the left item out of the `pairs` of its right item -/
def retainPairedDrop (left : RawTable (LeftItem L)) (right : RawTable (RightItem R)) :
    List (UInt64 × Nat) → Res (RawTable (LeftItem L) × RawTable (RightItem R))
  | [] => .ok (left, right)
  | (h, i) :: rest =>
    match left.removeEntry h (leftWithLeftId i) with
    | none => retainPairedDrop left right rest
    | some (l, left') =>
      match right.getMut l.hash (rightWithRightId l.rid) with
      | none => .error .unwrapNone
      | some (r, writeR) => retainPairedDrop left' (writeR { r with pairs := r.pairs.remove (h, i) }) rest

/-- `retain_paired` (972-988) with `!` before the call of the closure (979), and this loop -/
def retainPaired {σ : Type} (m : GroupMap L R) (f : σ → L → R → Bool × σ) (st : σ) : Res (σ × GroupMap L R) := do
  let ps ← m.iterPairedList
  let (toDrop, st) ← m.retainPairedScan (fun s l r => (!(f s l r).1, (f s l r).2)) ps st
  let (left, right) ← retainPairedDrop m.left m.right toDrop
  return (st, { m with left := left, right := right })

/-- `retain_unpaired` (1005-1021) with `!` before the call of the closure (1012) -/
def retainUnpaired {σ : Type} (m : GroupMap L R) (f : σ → R → Bool × σ) (st : σ) : Res (σ × GroupMap L R) :=
  m.retainUnpaired (fun s r => (!(f s r).1, (f s r).2)) st

/-- the closure of `eq` (1071-1074): a lone right item has to be there, and to be lone -/
def eqEntry (other : GroupMap L R) : Option L × R → Bool
  | (some l, r) => other.arePaired l r
  | (none, r) => other.containsRight r && !other.isRightPaired r

/-- `iter().all(..)` with this closure -/
def eqLoop (m other : GroupMap L R) : Nat → Iter R → Res Bool
  | 0, _ => .ok true
  | n + 1, it => do
    match ← it.next m with
    | none => return true
    | some (x, it') => if eqEntry other x then eqLoop m other n it' else return false

/-- `PartialEq::eq` (1067-1075) with `||` in line 1068, and this closure -/
def eq (m other : GroupMap L R) : Res Bool :=
  if m.lenLeft != other.lenLeft || m.lenRight != other.lenRight then .ok false
  else eqLoop m other (m.iter.fuel + 1) m.iter

/-- `Iter::clone` (1313-1321) with `left_iter: self.left_iter.clone()` in line 1316 -/
def Iter.clone (it : Iter R) : Iter R := it

/-- `Iter::len` (1390-1392) with this `clone`: `self.clone().count()` -/
def Iter.len (it : Iter R) (m : GroupMap L R) : Res Nat := do
  let (xs, _) ← Iter.take m ((Iter.clone it).fuel + 1) (Iter.clone it)
  return xs.length

/-- `Iter::size_hint` (1379-1381), replaced by `let n = self.len(); (n, Some(n))` -/
def Iter.sizeHint (it : Iter R) (m : GroupMap L R) : Res Nat := Iter.len it m

/-- `UnpairedIter::size_hint` (1519-1521), replaced in the same way -/
def UnpairedIter.sizeHint (it : UnpairedIter R) : Nat := it.len

/-- `clear` (1244-1247) with a guard that clears the right table when it is dropped: also if the destructor of a left item panics.  (Two panics
abort the process.) -/
def clearD (m : GroupMap L R) (d : τ → L ⊕ R → Bool × τ) (t : τ) : Ending × τ × GroupMap L R :=
  match dropTwo d (m.left.toList.map fun x => .inl x.value) (m.right.toList.map fun x => .inr x.value) t with
  | (e, t) => (e, t, { m with left := m.left.clear, right := m.right.clear })

end Verif.GroupMap.Repair
