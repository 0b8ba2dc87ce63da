import Verif.Unwind
import Verif.CycleMap.Always
import Verif.CycleMap.Panics
/-
The calls of `CycleMap` with panics that unwind (see `Verif.Unwind`): `/repo/src/cycle_map.rs` once more, now with the
places at which the items' own `Hash` and `Eq` run, and with the map as it is at every point.
-/
set_option linter.unusedSectionVars false
set_option linter.unusedSimpArgs false
namespace Verif.CycleMap
open CycleSpec OptionalPair Unw

section
variable [RawImpl] {L R : Type} [BEq L] [BEq R]

/-- `are_paired` — 198-209: two hashes, two probes -/
def arePairedU (left : L) (right : R) : Unw (CycleMap L R) Bool := do
  user
  user
  user
  user
  return (← get).arePaired left right

/-- `remove_via_left` — 274-283 -/
def removeViaLeftU (item : L) : Unw (CycleMap L R) (Option (L × R)) := do
  user
  user
  let m ← get
  let lHash := m.hb.hl item
  match m.left.removeEntry lHash (equivalentKey item) with
  | none => return none
  | some (lp, left') =>
    set { m with left := left' }
    match m.right.removeEntry lp.hash (hashAndId lHash lp.id) with
    | none => fail .unwrapNone
    | some (rp, right') =>
      set { m with left := left', right := right' }
      return some (lp.value, rp.value)

/-- `remove_via_right` — 297-306 -/
def removeViaRightU (item : R) : Unw (CycleMap L R) (Option (L × R)) := do
  user
  user
  let m ← get
  let rHash := m.hb.hr item
  match m.right.removeEntry rHash (equivalentKey item) with
  | none => return none
  | some (rp, right') =>
    set { m with right := right' }
    match m.left.removeEntry rp.hash (hashAndId rHash rp.id) with
    | none => fail .unwrapNone
    | some (lp, left') =>
      set { m with left := left', right := right' }
      return some (lp.value, rp.value)

/-- `remove` — 254-260 -/
def removeU (left : L) (right : R) : Unw (CycleMap L R) (Option (L × R)) := do
  if ← arePairedU left right then removeViaLeftU left else return none

/-- `remove_via_hashes_and_id` — 309-318 -/
def removeViaHashesAndIdU (lHash rHash : UInt64) (id : Nat) : Unw (CycleMap L R) (Option (L × R)) := do
  let m ← get
  match m.left.removeEntry lHash (hashAndId rHash id) with
  | none => return none
  | some (lp, left') =>
    set { m with left := left' }
    match m.right.removeEntry rHash (hashAndId lHash id) with
    | none => fail .unwrapNone
    | some (rp, right') =>
      set { m with left := left', right := right' }
      return some (lp.value, rp.value)

/-- `insert` — 155-183 -/
def insertU (left : L) (right : R) : Unw (CycleMap L R) (InsertOptional L R) := do
  let optFromLeft ← removeViaLeftU left
  let optFromRight ← removeViaRightU right
  let digest := ofPair (optFromLeft, optFromRight)
  user
  user
  let m ← get
  let lHash := m.hb.hl left
  let rHash := m.hb.hr right
  let leftPairing : MappingPair L := { value := left, hash := rHash, id := m.counter }
  let rightPairing : MappingPair R := { value := right, hash := lHash, id := m.counter }
  let m := { m with counter := m.counter + 1 }
  m.left.insertU lHash leftPairing (·.hashWith m.hb.hl) (fun t => { m with left := t })
  let m ← get
  m.right.insertU rHash rightPairing (·.hashWith m.hb.hr) (fun t => { m with right := t })
  return digest

/-- `swap_left_eq_check` — 459-468 -/
def swapLeftEqCheckU (old new : L) (newHash : UInt64) : Unw (CycleMap L R) (Option (L × R)) := do
  user
  let m ← get
  match m.left.get newHash (equivalentKey new) with
  | none => return none
  | some _ =>
    user
    if new != old then removeViaLeftU new else return none

/-- `swap_left` — 350-389 -/
def swapLeftU (old new : L) : Unw (CycleMap L R) (OptionalPair L (L × R)) := do
  user
  let m ← get
  let newLHash := m.hb.hl new
  let eqOpt ← swapLeftEqCheckU old new newLHash
  user
  user
  let m ← get
  let oldLHash := m.hb.hl old
  match m.left.get oldLHash (equivalentKey old) with
  | none => return neither
  | some lp =>
    match m.right.getMut lp.hash (hashAndId oldLHash lp.id) with
    | none => fail .unwrapNone
    | some (rp, writeRight) =>
      set { m with right := writeRight { rp with hash := newLHash } }
      let m ← get
      let newLeftPairing : MappingPair L := { value := new, hash := lp.hash, id := lp.id }
      user
      match m.left.removeEntry oldLHash (equivalentKey old) with
      | none => fail .unwrapNone
      | some (oldLp, left') =>
        set { m with left := left' }
        left'.insertU newLHash newLeftPairing (·.hashWith m.hb.hl) (fun t => { m with left := t })
        return ofPair (some oldLp.value, eqOpt)

/-- `swap_left_checked` — 414-420 -/
def swapLeftCheckedU (old : L) (expected : R) (new : L) : Unw (CycleMap L R) (OptionalPair L (L × R)) := do
  if !(← arePairedU old expected) then return neither else swapLeftU old new

/-- `swap_left_or_insert` — 442-456 -/
def swapLeftOrInsertU (old new : L) (toInsert : R) : Unw (CycleMap L R) (OptionalPair L (L × R)) := do
  user
  user
  let m ← get
  if (m.left.get (m.hb.hl old) (equivalentKey old)).isSome then swapLeftU old new
  else do
    let o ← insertU new toInsert
    return o.mapLeft (fun p => p.1)

/-- `swap_right_eq_check` — 622-631 -/
def swapRightEqCheckU (old new : R) (newHash : UInt64) : Unw (CycleMap L R) (Option (L × R)) := do
  user
  let m ← get
  match m.right.get newHash (equivalentKey new) with
  | none => return none
  | some _ =>
    user
    if new != old then removeViaRightU new else return none

/-- `swap_right` — 500-540 -/
def swapRightU (old new : R) : Unw (CycleMap L R) (OptionalPair R (L × R)) := do
  user
  let m ← get
  let newRHash := m.hb.hr new
  let eqOpt ← swapRightEqCheckU old new newRHash
  user
  user
  let m ← get
  let oldRHash := m.hb.hr old
  match m.right.get oldRHash (equivalentKey old) with
  | none => return neither
  | some rp =>
    match m.left.getMut rp.hash (hashAndId oldRHash rp.id) with
    | none => fail .unwrapNone
    | some (lp, writeLeft) =>
      user
      let newRHash := m.hb.hr new
      set { m with left := writeLeft { lp with hash := newRHash } }
      let m ← get
      let newRightPairing : MappingPair R := { value := new, hash := rp.hash, id := rp.id }
      user
      match m.right.removeEntry oldRHash (equivalentKey old) with
      | none => fail .unwrapNone
      | some (oldRp, right') =>
        set { m with right := right' }
        right'.insertU newRHash newRightPairing (·.hashWith m.hb.hr) (fun t => { m with right := t })
        return ofPair (some oldRp.value, eqOpt)

/-- `swap_right_checked` — 565-571 -/
def swapRightCheckedU (old : R) (expected : L) (new : R) : Unw (CycleMap L R) (OptionalPair R (L × R)) := do
  if !(← arePairedU expected old) then return neither else swapRightU old new

/-- `swap_right_or_insert` — 595-619 -/
def swapRightOrInsertU (old new : R) (toInsert : L) : Unw (CycleMap L R) (OptionalPair R (L × R)) := do
  user
  user
  let m ← get
  if (m.right.get (m.hb.hr old) (equivalentKey old)).isSome then swapRightU old new
  else do
    match ← insertU toInsert new with
    | neither => return neither
    | someRight pair => return someRight pair
    | _ => fail .unreachable

/-- `Iter::next` on an entry — 1218-1227, with `get_right` — 669-683 -/
def nextU (l : MappingPair L) : Unw (CycleMap L R) (L × R) := do
  user
  user
  let m ← get
  match m.getRight l.value with
  | none => fail .unwrapNone
  | some r => return (l.value, r)

/-- a `for` loop over `iter()` — 730-735 -/
def collectU : List (MappingPair L) → Unw (CycleMap L R) (List (L × R))
  | [] => return []
  | l :: rest => do
    let p ← nextU l
    return p :: (← collectU rest)

/-- `DrainIter::next` — 1321-1328, at most `n` times; `DrainIter` is dropped when the loop is left, also by a panic:
its `RawDrain` empties the left table, the right table is only borrowed -/
def drainLoopU : Nat → List (MappingPair L) → Unw (CycleMap L R) (List (L × R))
  | 0, _ => return []
  | _ + 1, [] => return []
  | n + 1, l :: rest => do
    let m ← get
    match m.right.removeEntry l.hash (justId l.id) with
    | none => fail .unwrapNone
    | some (r, right') =>
      set { m with right := right' }
      return (l.value, r.value) :: (← drainLoopU n rest)

/-- `drain()` — 796-802, `n` calls of `next`, drop -/
def drainU (n : Nat) : Unw (CycleMap L R) (List (L × R)) := do
  let m ← get
  set { m with counter := 0, left := m.left.clear }
  drainLoopU n m.left.toList

/-- what `next` of `DrainFilterIter` ends with; `panic none` is a panic of the closure -/
inductive NextU (L R : Type) where
  | done
  | item (p : L × R)
  | panic (why : Option Panic)

/-- `DrainFilterInner::next` — 1411-1430, with a closure that may panic and with its own `unwrap`: either way the
visited entry has been taken from the iterator, and neither table has been changed for it -/
def DrainFilter.nextU {σ : Type} (f : σ → L → R → Option Bool × σ) (kept todo : List (UInt64 × MappingPair L))
    (right : RawTable (MappingPair R)) (st : σ) : NextU L R × DrainFilter σ L R :=
  match todo with
  | [] => (.done, { kept := kept, todo := [], right := right, st := st })
  | e :: rest =>
    match right.removeEntry e.2.hash (justId e.2.id) with
    | none => (.panic (some .unwrapNone), { kept := kept ++ [e], todo := rest, right := right, st := st })
    | some (r, right') =>
      match f st e.2.value r.value with
      | (none, st') => (.panic none, { kept := kept ++ [e], todo := rest, right := right, st := st' })
      | (some true, st') =>
        (.item (e.2.value, r.value), { kept := kept, todo := rest, right := right', st := st' })
      | (some false, st') => DrainFilter.nextU f (kept ++ [e]) rest right st'

/-- calling `next` at most `n` times, until it returns `None` or panics; `some why` if it panicked -/
def DrainFilter.takeU {σ : Type} (f : σ → L → R → Option Bool × σ) :
    Nat → DrainFilter σ L R → List (L × R) × Option (Option Panic) × DrainFilter σ L R
  | 0, it => ([], none, it)
  | n + 1, it =>
    match DrainFilter.nextU f it.kept it.todo it.right it.st with
    | (.done, it') => ([], none, it')
    | (.panic why, it') => ([], some why, it')
    | (.item p, it') =>
      let (ps, w, it'') := DrainFilter.takeU f n it'
      (p :: ps, w, it'')

/-- `drain_filter(f)` — 830-842, at most `n` calls of `next`, then `Drop` — 1368-1374, also when a `next` panicked.
A panic in `Drop` propagates, or, while another panic unwinds, aborts the process. -/
def drainFilterU {σ : Type} (f : σ → L → R → Option Bool × σ) (st : σ) (n : Nat) : Unw (CycleMap L R) (List (L × R)) :=
  fun fate m =>
    let (ps, w, it) := DrainFilter.takeU f n { kept := [], todo := m.left.entries, right := m.right, st := st }
    let (_, w', it) := DrainFilter.takeU f (it.todo.length + 1) it
    let m' := { m with left := RawImpl.touch (.erase (stays m.left (it.kept ++ it.todo))) { m.left with entries := it.kept ++ it.todo },
                       right := it.right }
    match w, w' with
    | none, none => .done ps fate m'
    | some why, none | none, some why => .panic why m'
    | some _, some _ => .abort

/-- first loop of `retain` — 865-873, with a closure that may panic -/
def retainScanU {σ : Type} (f : σ → L → R → Option Bool × σ) :
    List (MappingPair L) → σ → Unw (CycleMap L R) (List (UInt64 × UInt64 × Nat))
  | [], _ => return []
  | l :: rest, st => do
    let (left, right) ← nextU l
    match f st left right with
    | (none, _) => fun _ m => .panic none m
    | (some true, st') => retainScanU f rest st'
    | (some false, st') =>
      user
      user
      user
      user
      let m ← get
      match m.getLeftInner left with
      | none => fail .unwrapNone
      | some lp =>
        let d ← retainScanU f rest st'
        return (m.hb.hl left, m.hb.hr right, lp.id) :: d

/-- second loop of `retain` — 874-876 -/
def retainDropU : List (UInt64 × UInt64 × Nat) → Unw (CycleMap L R) Unit
  | [] => return ()
  | (lHash, rHash, id) :: rest => do
    let _ ← removeViaHashesAndIdU lHash rHash id
    retainDropU rest

/-- `retain` — 861-877 -/
def retainU {σ : Type} (f : σ → L → R → Option Bool × σ) (st : σ) : Unw (CycleMap L R) Unit := do
  let m ← get
  let toDrop ← retainScanU f m.iter.todo st
  retainDropU toDrop

/-- `extend` — 1165-1169; the iterator it is given may panic, too -/
def extendU : List (L × R) → Unw (CycleMap L R) Unit
  | [] => user
  | (l, r) :: rest => do
    user
    let _ ← insertU l r
    extendU rest

/-- `shrink_to` — 900-905 -/
def shrinkToTwiceU (n : Nat) : Unw (CycleMap L R) Unit := do
  let m ← get
  m.left.shrinkToU n (·.hashWith m.hb.hl) (fun t => { m with left := t })
  let m ← get
  m.right.shrinkToU n (·.hashWith m.hb.hr) (fun t => { m with right := t })

/-- `shrink_to_fit` — 922-927 -/
def shrinkToFitU : Unw (CycleMap L R) Unit := do
  let m ← get
  m.left.shrinkToU m.len (·.hashWith m.hb.hl) (fun t => { m with left := t })
  let m ← get
  m.right.shrinkToU m.len (·.hashWith m.hb.hr) (fun t => { m with right := t })

/-- `reserve` — 941-946 -/
def reserveTwiceU (n : Nat) : Unw (CycleMap L R) Unit := do
  let m ← get
  m.left.reserveU n (·.hashWith m.hb.hl) (fun t => { m with left := t })
  let m ← get
  m.right.reserveU n (·.hashWith m.hb.hr) (fun t => { m with right := t })

/-- `try_reserve` — 960-966 -/
def tryReserveU (n : Nat) (okLeft okRight : Bool) : Unw (CycleMap L R) Bool := do
  if okLeft then
    let m ← get
    m.left.reserveU n (·.hashWith m.hb.hl) (fun t => { m with left := t })
    if okRight then
      let m ← get
      m.right.reserveU n (·.hashWith m.hb.hr) (fun t => { m with right := t })
      return true
    else return false
  else return false

/-- a closure that does not panic -/
def sure {σ : Type} (f : σ → L → R → Bool × σ) (s : σ) (l : L) (r : R) : Option Bool × σ := (some (f s l r).1, (f s l r).2)

/-- Running a call, with panics that unwind.  Lookups: a hash, a probe (`are_paired`: two each).  `clone`: the items' `Clone` may
panic, then the caller keeps the original. -/
def execU : Op L R → Unw (CycleMap L R) (Out L R)
  | .insert l r => do return .inserted (← insertU l r)
  | .remove l r => do return .pair (← removeU l r)
  | .removeViaLeft l => do return .pair (← removeViaLeftU l)
  | .removeViaRight r => do return .pair (← removeViaRightU r)
  | .swapLeft old new => do return .swappedLeft (← swapLeftU old new)
  | .swapLeftChecked old e new => do return .swappedLeft (← swapLeftCheckedU old e new)
  | .swapLeftOrInsert old new r => do return .swappedLeft (← swapLeftOrInsertU old new r)
  | .swapRight old new => do return .swappedRight (← swapRightU old new)
  | .swapRightChecked old e new => do return .swappedRight (← swapRightCheckedU old e new)
  | .swapRightOrInsert old new l => do return .swappedRight (← swapRightOrInsertU old new l)
  | .getLeft r => do user; user; return .left ((← get).getLeft r)
  | .getRight l => do user; user; return .right ((← get).getRight l)
  | .containsLeft l => do user; user; return .bool ((← get).containsLeft l)
  | .containsRight r => do user; user; return .bool ((← get).containsRight r)
  | .arePaired l r => do return .bool (← arePairedU l r)
  | .len => do return .nat (← get).len
  | .isEmpty => do return .bool (← get).isEmpty
  | .clear => do set (← get).clear; return .unit
  | .iter => do return .pairs (← collectU (← get).iter.todo)
  | .iterLeft => do return .lefts (← get).iterLeft
  | .iterRight => do return .rights (← get).iterRight
  | .drain n => do return .pairs (← drainU n)
  | .drainFilter _ f s n => do return .pairs (← drainFilterU (sure f) s n)
  | .drainFilterAll _ f s => do return .pairs (← drainFilterU (sure f) s ((← get).len + 1))
  | .retain _ f s => do retainU (sure f) s; return .unit
  | .extend xs => do extendU xs; return .unit
  | .reserve n => do reserveTwiceU n; return .unit
  | .tryReserve n a b => do return .bool (← tryReserveU n a b)
  | .shrinkTo n => do shrinkToTwiceU n; return .unit
  | .shrinkToFit => do shrinkToFitU; return .unit
  | .clone cl cr => do user; set ((← get).clone cl cr); return .unit

/-- A call whose closure may panic, or one of the others. -/
inductive Call (L R : Type) : Type 1 where
  | plain (op : Op L R)
  | drainFilter (σ : Type) (f : σ → L → R → Option Bool × σ) (s : σ) (n : Nat)
  | retain (σ : Type) (f : σ → L → R → Option Bool × σ) (s : σ)

/-- Running such a call. -/
def callU : Call L R → Unw (CycleMap L R) (Out L R)
  | .plain op => execU op
  | .drainFilter _ f s n => do return .pairs (← drainFilterU f s n)
  | .retain _ f s => do retainU f s; return .unit

/-- A history in which every panic is caught and the map used further; `none` if the process is aborted. -/
def runU (m : CycleMap L R) : List (Fate × Call L R) → Option (CycleMap L R)
  | [] => some m
  | (f, call) :: rest =>
    match callU call f m with
    | .done _ _ m' => runU m' rest
    | .panic _ m' => runU m' rest
    | .abort => none

end
end Verif.CycleMap
