import Verif.DropEnd
import Verif.PartialMap.Model
/-! What the calls of `PartialCycleMap` that do not do what is documented could be replaced by.  None of this is in /repo: every definition says which
lines of `partial_cycle_map.rs` it changes, and how.  C134 (`Verif.Props.RepairPartial`) proves that the documentation is true of these. -/
namespace Verif.PartialMap.Repair
open OptionalPair
open CycleMap (Ending)

variable [RawImpl] {L R τ : Type} [BEq L] [BEq R]

/-- `unpair` (550-572) with a new first line: `if !self.are_paired(left, right) { return false; }` -/
def unpair (m : PartialMap L R) (left : L) (right : R) : Bool × PartialMap L R :=
  if !m.arePaired left right then (false, m) else m.unpair left right

/-- `swap_left` (842-887) with a new first line: `if !self.contains_left(old) { return Neither; }` -/
def swapLeft (m : PartialMap L R) (old new : L) : Res (OptionalPair L (OptionalPair L R) × PartialMap L R) :=
  if !m.containsLeft old then .ok (neither, m) else m.swapLeft old new

/-- `swap_right` (997-1042) with a new first line: `if !self.contains_right(old) { return Neither; }` -/
def swapRight (m : PartialMap L R) (old new : R) : Res (OptionalPair R (OptionalPair L R) × PartialMap L R) :=
  if !m.containsRight old then .ok (neither, m) else m.swapRight old new

/-- `swap_left_or_insert` (940-959), where `unreachable!` of line 955 is replaced by the cases that do occur -/
def swapLeftOrInsert (m : PartialMap L R) (old new : L) (toInsert : R) :
    Res (OptionalPair L (OptionalPair L R) × PartialMap L R) :=
  if (m.left.get (m.hb.hl old) (equivalentKey old)).isSome then m.swapLeft old new
  else do
    match ← m.insert new toInsert with
    | ((neither, neither), m) => return (neither, m)
    | ((neither, e), m) => return (someRight e, m)
    | ((e, neither), m) => return (someRight e, m)
    | ((e, e'), m) => return (ofPair (e.toPair.1, some e'), m)

/-- `swap_right_or_insert` (1095-1119), where `unreachable!` of line 1115 is replaced by the cases that do occur -/
def swapRightOrInsert (m : PartialMap L R) (old new : R) (toInsert : L) :
    Res (OptionalPair R (OptionalPair L R) × PartialMap L R) :=
  if (m.right.get (m.hb.hr old) (equivalentKey old)).isSome then m.swapRight old new
  else do
    match ← m.insert toInsert new with
    | ((neither, neither), m) => return (neither, m)
    | ((e, neither), m) => return (someRight e, m)
    | ((neither, e), m) => return (someRight e, m)
    | ((e, e'), m) => return (ofPair (e'.toPair.2, some e), m)

/-- `Iter::next` (2022-2031), where `None => None` of line 2029 is replaced by the second loop of `UnpairedIter::next` (2179-2187), for which
the iterator needs a `right_iter`, as `UnpairedIter` has -/
def Iter.next (m : PartialMap L R) (it : UnpairedIter L R) : Option (OptionalPair L R × UnpairedIter L R) :=
  match it.todoL with
  | l :: rest => some (ofPair (some l.value, m.getRight l.value), ⟨rest, it.todoR⟩)
  | [] => UnpairedIter.nextR it.todoR

/-- calling `next` until it returns `None`, at most `n` times -/
def Iter.take (m : PartialMap L R) : Nat → UnpairedIter L R → List (OptionalPair L R) × UnpairedIter L R
  | 0, it => ([], it)
  | n + 1, it =>
    match Iter.next m it with
    | none => ([], it)
    | some (o, it') => (o :: (Iter.take m n it').1, (Iter.take m n it').2)

/-- `iter` (1248-1253) with both tables -/
def iter (m : PartialMap L R) : UnpairedIter L R := ⟨m.left.toList, m.right.toList⟩

/-- everything this `iter` yields -/
def iterList (m : PartialMap L R) : List (OptionalPair L R) := (Iter.take m (m.lenLeft + m.lenRight + 1) (iter m)).1

/-- `Iter::size_hint` and `Iter::len` (2033-2046) of this `iter`: both `self.clone().count()` -/
def Iter.len (m : PartialMap L R) (it : UnpairedIter L R) : Nat := (Iter.take m (it.todoL.length + it.todoR.length + 1) it).1.length

/-- `PairedIter::size_hint` (2110-2112), replaced by `let n = self.clone().count(); (n, Some(n))` -/
def PairedIter.sizeHint (m : PartialMap L R) (it : PairedIter L R) : Res Nat := it.len m

/-- `UnpairedIter::size_hint` (2190-2192), replaced in the same way -/
def UnpairedIter.sizeHint (it : UnpairedIter L R) : Nat := it.len

/-- `DrainIter` (2270-2277) with one more field, `right_iter: Option<RawIntoIter<MappingPair<R>>>` -/
structure DrainIter (L R : Type) where
  todo : List (MappingPair L)
  right : RawTable (MappingPair R)
  rest : Option (List (MappingPair R))

/-- `DrainIter::next` (2309-2329), where lines 2323-2327 are replaced: the first time the left entries are used up, `right_iter` becomes
`mem::take(right_ref).into_iter()`; it yields what is left -/
def DrainIter.next (it : DrainIter L R) : Res (Option (OptionalPair L R) × DrainIter L R) :=
  match it.todo with
  | l :: rest =>
    match l.hash with
    | some hash =>
      match it.right.removeEntry hash (justId l.id) with
      | none => .error .unwrapNone
      | some (r, right') => .ok (some (someBoth l.value r.value), { it with todo := rest, right := right' })
    | none => .ok (some (someLeft l.value), { it with todo := rest })
  | [] =>
    match it.rest.getD it.right.toList with
    | [] => .ok (none, { todo := [], right := RawTable.withCapacity 0, rest := some [] })
    | r :: rs => .ok (some (someRight r.value), { todo := [], right := RawTable.withCapacity 0, rest := some rs })

/-- calling `next` until it returns `None`, at most `n` times -/
def DrainIter.take : Nat → DrainIter L R → Res (List (OptionalPair L R) × DrainIter L R)
  | 0, it => .ok ([], it)
  | n + 1, it => do
    match ← it.next with
    | (none, it') => return ([], it')
    | (some p, it') =>
      let (ps, it'') ← DrainIter.take n it'
      return (p :: ps, it'')

/-- `DrainIter::len` (2341-2343) with the lone right items: `self.left_iter.len()`, and in addition `right_iter.len()`, or, as long as there is no
`right_iter`, the number of entries of the right table whose `hash` is `None` -/
def DrainIter.len (it : DrainIter L R) : Nat :=
  it.todo.length + match it.rest with
    | some rs => rs.length
    | none => (it.right.toList.filter fun r => r.hash.isNone).length

/-- `drain()` (1366-1371), at most `n` calls of `next`, then `Drop` (2279-2292), whose loop is replaced by `self.right_ref.clear()` (the fields
are dropped after it) -/
def drainTake (m : PartialMap L R) (n : Nat) : Res (List (OptionalPair L R) × PartialMap L R) := do
  let (ps, it) ← DrainIter.take n { todo := m.left.toList, right := m.right, rest := none }
  return (ps, { m with left := m.left.clear, right := it.right.clear })

/-- second loop of `DrainFilterInner::next` (2439-2445) with a new first line: `if pair.hash.is_some() { continue; }` -/
def DrainFilter.nextR {σ : Type} (f : σ → OptionalPair L R → Bool × σ) (kept todo : List (UInt64 × MappingPair R)) (st : σ) :
    Option (OptionalPair L R) × List (UInt64 × MappingPair R) × List (UInt64 × MappingPair R) × σ :=
  match todo with
  | [] => (none, kept, [], st)
  | e :: rest =>
    if e.2.hash.isSome then DrainFilter.nextR f (kept ++ [e]) rest st
    else
      match f st (someRight e.2.value) with
      | (true, st') => (some (someRight e.2.value), kept, rest, st')
      | (false, st') => DrainFilter.nextR f (kept ++ [e]) rest st'

/-- `DrainFilterInner::next` (2411-2447) with this loop -/
def DrainFilter.next {σ : Type} (f : σ → OptionalPair L R → Bool × σ) (it : PartialMap.DrainFilter σ L R) :
    Res (Option (OptionalPair L R) × PartialMap.DrainFilter σ L R) := do
  match ← PartialMap.DrainFilter.nextL f it.keptL it.todoL it.right it.st with
  | (some o, keptL, todoL, right, st) =>
    return (some o, { it with keptL := keptL, todoL := todoL, right := right, st := st })
  | (none, keptL, _, right, st) =>
    let (keptR, todoR) := if it.reset then ([], right.entries) else (it.keptR, it.todoR)
    let (o, keptR, todoR, st) := DrainFilter.nextR f keptR todoR st
    return (o, { keptL := keptL, todoL := [], right := right, reset := false, keptR := keptR, todoR := todoR, st := st })

/-- calling `next` until it returns `None`, at most `n` times -/
def DrainFilter.take {σ : Type} (f : σ → OptionalPair L R → Bool × σ) :
    Nat → PartialMap.DrainFilter σ L R → Res (List (OptionalPair L R) × PartialMap.DrainFilter σ L R)
  | 0, it => .ok ([], it)
  | n + 1, it => do
    match ← DrainFilter.next f it with
    | (none, it') => return ([], it')
    | (some p, it') =>
      let (ps, it'') ← DrainFilter.take f n it'
      return (p :: ps, it'')

/-- `drain_filter(f)` (1401-1418), at most `n` calls of this `next`, then `Drop` (2365-2378) -/
def drainFilterTake {σ : Type} (m : PartialMap L R) (f : σ → OptionalPair L R → Bool × σ) (st : σ) (n : Nat) :
    Res (List (OptionalPair L R) × σ × PartialMap L R) := do
  let (ps, it) ← DrainFilter.take f n
    { keptL := [], todoL := m.left.entries, right := m.right, reset := true, keptR := [], todoR := [], st := st }
  let (_, it) ← DrainFilter.take f (it.todoL.length + it.right.len + it.todoR.length + 1) it
  return (ps, it.st, { m with
    left := RawImpl.touch (.erase (stays m.left (it.keptL ++ it.todoL))) { m.left with entries := it.keptL ++ it.todoL },
    right := RawImpl.touch (.erase (stays it.right (it.keptR ++ it.todoR))) { it.right with entries := it.keptR ++ it.todoR } })

/-- the upper bound of `DrainFilterIter::size_hint` (2391-2393) with the right entries: as long as `reset_right_iter` holds,
`self.inner.right_ref.len()` of them, and then those `right_iter` has still to visit -/
def DrainFilter.sizeHint {σ : Type} (it : PartialMap.DrainFilter σ L R) : Nat :=
  it.todoL.length + if it.reset then it.right.len else it.todoR.length

/-- `retain_paired` (1486-1502) with `if !f(left, right)` in line 1492 -/
def retainPaired {σ : Type} (m : PartialMap L R) (f : σ → L → R → Bool × σ) (st : σ) : Res (σ × PartialMap L R) :=
  m.retainPaired (fun s l r => (!(f s l r).1, (f s l r).2)) st

/-- `retain_unpaired` (1519-1557) with `if !f(&op)` in line 1526 -/
def retainUnpaired {σ : Type} (m : PartialMap L R) (f : σ → OptionalPair L R → Bool × σ) (st : σ) : Res (σ × PartialMap L R) :=
  m.retainUnpaired (fun s e => (!(f s e).1, (f s e).2)) st

/-- `retain` (1434-1469), replaced by
`self.retain_paired(|l, r| f(&SomeBoth(l, r))); self.retain_unpaired(f);` -/
def retain {σ : Type} (m : PartialMap L R) (f : σ → OptionalPair L R → Bool × σ) (st : σ) : Res (σ × PartialMap L R) := do
  let (st, m) ← retainPaired m (fun s l r => f s (someBoth l r)) st
  retainUnpaired m f st

/-- the closure of `eq` (1750-1757), where a lone item has to be there, and to be alone -/
def eqEntry (other : PartialMap L R) : OptionalPair L R → Res Bool
  | someLeft l => .ok (other.containsLeft l && !other.isLeftPaired l)
  | someRight r => .ok (other.containsRight r && !other.isRightPaired r)
  | someBoth l r => .ok (other.arePaired l r)
  | neither => .error .unreachable

/-- `iter().all(..)`, short-circuiting -/
def eqAll (other : PartialMap L R) : List (OptionalPair L R) → Res Bool
  | [] => .ok true
  | op :: rest => do
    if ← eqEntry other op then eqAll other rest else return false

/-- `PartialEq::eq` (1746-1758) with `||` in line 1747, this closure, and the `iter` above -/
def eq (m other : PartialMap L R) : Res Bool :=
  if m.lenLeft != other.lenLeft || m.lenRight != other.lenRight then .ok false else eqAll other (iterList m)

/-- `clear` (1919-1922) with a guard that clears the right table when it is dropped: also if the destructor of a left item panics.  (Two panics
abort the process.) -/
def clearD (m : PartialMap L R) (d : τ → L ⊕ R → Bool × τ) (t : τ) : Ending × τ × PartialMap L R :=
  match dropTwo d (m.left.toList.map fun x => .inl x.value) (m.right.toList.map fun x => .inr x.value) t with
  | (e, t) => (e, t, { m with left := m.left.clear, right := m.right.clear })

end Verif.PartialMap.Repair
