import Verif.Raw
import Verif.Optionals
/-
Model of `/repo/src/cycle_map.rs`, function by function.  Line numbers refer to that file.
`&mut self` methods return the new map; `unwrap()` on `None` is `.error .unwrapNone`.
-/
namespace Verif.CycleMap
open OptionalPair

/-- `MappingPair<T>` — 24-28: an item, the hash of its partner, the id of the pairing -/
structure MappingPair (T : Type) where
  value : T
  hash : UInt64
  id : Nat

/-- `equivalent_key` — 30-32 -/
def equivalentKey {T : Type} [BEq T] (k : T) (x : MappingPair T) : Bool := k == x.value

/-- `hash_and_id` — 34-36 -/
def hashAndId {T : Type} (hash : UInt64) (id : Nat) (x : MappingPair T) : Bool :=
  id == x.id && hash == x.hash

/-- `just_id` — 38-40 -/
def justId {T : Type} (id : Nat) (x : MappingPair T) : Bool := id == x.id

/-- `make_hasher::<MappingPair<T>, S>` — utils.rs 16-22, with `Hash for MappingPair` — 1440-1444: what a table hashes
when it moves its elements -/
def MappingPair.hashWith {T : Type} (h : T → UInt64) (x : MappingPair T) : UInt64 := h x.value

/-- `extract` — 1433-1437 -/
def MappingPair.extract {T : Type} (x : MappingPair T) : T := x.value

/-- `PartialEq for MappingPair` — 1446-1450 (the hash of the partner is not compared) -/
def MappingPair.beq {T : Type} [BEq T] (x y : MappingPair T) : Bool := x.id == y.id && x.value == y.value

/-- `PartialEq<T> for MappingPair<T>` — 1452-1456 -/
def MappingPair.beqItem {T : Type} [BEq T] (x : MappingPair T) (y : T) : Bool := x.value == y

/-- `CycleMap<L, R, St>` — 88-93.  `counter : u64` is a `Nat` here (see C32). -/
structure _root_.Verif.CycleMap (L R : Type) [BEq L] [BEq R] where
  hb : BuildHasher L R
  counter : Nat
  left : RawTable (MappingPair L)
  right : RawTable (MappingPair R)

variable [RawImpl] {L R : Type} [BEq L] [BEq R]

/-- `with_capacity_and_hasher` — 1018-1025 (and `with_capacity`, 117-119) -/
def withCapacityAndHasher (n : Nat) (hb : BuildHasher L R) : CycleMap L R :=
  { hb := hb, counter := 0, left := RawTable.withCapacity n, right := RawTable.withCapacity n }

/-- `with_hasher` — 988-995 (and `new`, `default`, 105-107, 1120-1122, which use some default builder) -/
def withHasher (hb : BuildHasher L R) : CycleMap L R :=
  { hb := hb, counter := 0, left := RawTable.withCapacity 0, right := RawTable.withCapacity 0 }

/-- `len` — 1060-1063: the size of the left table -/
def len (m : CycleMap L R) : Nat := m.left.len

/-- `is_empty` — 1077-1079 -/
def isEmpty (m : CycleMap L R) : Bool := m.len == 0

/-- `capacity` — 1042-1045: that of the left table -/
def capacity (m : CycleMap L R) : Nat := m.left.capacity

/-- `hasher` — 1028-1030 -/
def hasher (m : CycleMap L R) : BuildHasher L R := m.hb

/-- `clear` — 1094-1097 -/
def clear (m : CycleMap L R) : CycleMap L R :=
  { m with left := m.left.clear, right := m.right.clear }

/-- `are_paired` — 198-209 -/
def arePaired (m : CycleMap L R) (left : L) (right : R) : Bool :=
  let lHash := m.hb.hl left
  let rHash := m.hb.hr right
  match m.left.get lHash (equivalentKey left), m.right.get rHash (equivalentKey right) with
  | some l, some r => l.id == r.id && lHash == r.hash && rHash == l.hash
  | _, _ => false

/-- `contains_left` — 222-225 -/
def containsLeft (m : CycleMap L R) (left : L) : Bool :=
  (m.left.get (m.hb.hl left) (equivalentKey left)).isSome

/-- `contains_right` — 238-241 -/
def containsRight (m : CycleMap L R) (right : R) : Bool :=
  (m.right.get (m.hb.hr right) (equivalentKey right)).isSome

/-- `remove_via_left` — 274-283 -/
def removeViaLeft (m : CycleMap L R) (item : L) : Res (Option (L × R) × CycleMap L R) :=
  let lHash := m.hb.hl item
  match m.left.removeEntry lHash (equivalentKey item) with
  | none => .ok (none, m)
  | some (lp, left') =>
    match m.right.removeEntry lp.hash (hashAndId lHash lp.id) with
    | none => .error .unwrapNone
    | some (rp, right') => .ok (some (lp.value, rp.value), { m with left := left', right := right' })

/-- `remove_via_right` — 297-306 -/
def removeViaRight (m : CycleMap L R) (item : R) : Res (Option (L × R) × CycleMap L R) :=
  let rHash := m.hb.hr item
  match m.right.removeEntry rHash (equivalentKey item) with
  | none => .ok (none, m)
  | some (rp, right') =>
    match m.left.removeEntry rp.hash (hashAndId rHash rp.id) with
    | none => .error .unwrapNone
    | some (lp, left') => .ok (some (lp.value, rp.value), { m with left := left', right := right' })

/-- `remove` — 254-260 -/
def remove (m : CycleMap L R) (left : L) (right : R) : Res (Option (L × R) × CycleMap L R) :=
  if m.arePaired left right then m.removeViaLeft left else .ok (none, m)

/-- `remove_via_hashes_and_id` — 309-318 -/
def removeViaHashesAndId (m : CycleMap L R) (lHash rHash : UInt64) (id : Nat) :
    Res (Option (L × R) × CycleMap L R) :=
  match m.left.removeEntry lHash (hashAndId rHash id) with
  | none => .ok (none, m)
  | some (lp, left') =>
    match m.right.removeEntry rHash (hashAndId lHash id) with
    | none => .error .unwrapNone
    | some (rp, right') => .ok (some (lp.value, rp.value), { m with left := left', right := right' })

/-- `insert` — 155-183 -/
def insert (m : CycleMap L R) (left : L) (right : R) : Res (InsertOptional L R × CycleMap L R) := do
  let (optFromLeft, m) ← m.removeViaLeft left
  let (optFromRight, m) ← m.removeViaRight right
  let digest := ofPair (optFromLeft, optFromRight)
  let lHash := m.hb.hl left
  let rHash := m.hb.hr right
  let leftPairing : MappingPair L := { value := left, hash := rHash, id := m.counter }
  let rightPairing : MappingPair R := { value := right, hash := lHash, id := m.counter }
  return (digest, { m with counter := m.counter + 1,
                           left := m.left.insert lHash leftPairing (·.hashWith m.hb.hl),
                           right := m.right.insert rHash rightPairing (·.hashWith m.hb.hr) })

/-- `swap_left_eq_check` — 459-468 -/
def swapLeftEqCheck (m : CycleMap L R) (old new : L) (newHash : UInt64) :
    Res (Option (L × R) × CycleMap L R) :=
  match m.left.get newHash (equivalentKey new) with
  | none => .ok (none, m)
  | some _ => if new != old then m.removeViaLeft new else .ok (none, m)

/-- `swap_left` — 350-389 -/
def swapLeft (m : CycleMap L R) (old new : L) : Res (OptionalPair L (L × R) × CycleMap L R) := do
  let newLHash := m.hb.hl new
  let (eqOpt, m) ← m.swapLeftEqCheck old new newLHash
  let oldLHash := m.hb.hl old
  match m.left.get oldLHash (equivalentKey old) with
  | none => return (neither, m)
  | some lp =>
    match m.right.getMut lp.hash (hashAndId oldLHash lp.id) with
    | none => .error .unwrapNone
    | some (rp, writeRight) =>
      let right' := writeRight { rp with hash := newLHash }
      let newLeftPairing : MappingPair L := { value := new, hash := lp.hash, id := lp.id }
      match m.left.removeEntry oldLHash (equivalentKey old) with
      | none => .error .unwrapNone
      | some (oldLp, left') =>
        return (ofPair (some oldLp.value, eqOpt),
          { m with left := left'.insert newLHash newLeftPairing (·.hashWith m.hb.hl), right := right' })

/-- `swap_left_checked` — 414-420 -/
def swapLeftChecked (m : CycleMap L R) (old : L) (expected : R) (new : L) :
    Res (OptionalPair L (L × R) × CycleMap L R) :=
  if !m.arePaired old expected then .ok (neither, m) else m.swapLeft old new

/-- `swap_left_or_insert` — 442-456 -/
def swapLeftOrInsert (m : CycleMap L R) (old new : L) (toInsert : R) :
    Res (OptionalPair L (L × R) × CycleMap L R) :=
  if (m.left.get (m.hb.hl old) (equivalentKey old)).isSome then m.swapLeft old new
  else do
    let (o, m) ← m.insert new toInsert
    return (o.mapLeft (fun p => p.1), m)

/-- `swap_right_eq_check` — 622-631 -/
def swapRightEqCheck (m : CycleMap L R) (old new : R) (newHash : UInt64) :
    Res (Option (L × R) × CycleMap L R) :=
  match m.right.get newHash (equivalentKey new) with
  | none => .ok (none, m)
  | some _ => if new != old then m.removeViaRight new else .ok (none, m)

/-- `swap_right` — 500-540 -/
def swapRight (m : CycleMap L R) (old new : R) : Res (OptionalPair R (L × R) × CycleMap L R) := do
  let newRHash := m.hb.hr new
  let (eqOpt, m) ← m.swapRightEqCheck old new newRHash
  let oldRHash := m.hb.hr old
  match m.right.get oldRHash (equivalentKey old) with
  | none => return (neither, m)
  | some rp =>
    match m.left.getMut rp.hash (hashAndId oldRHash rp.id) with
    | none => .error .unwrapNone
    | some (lp, writeLeft) =>
      let newRHash := m.hb.hr new
      let left' := writeLeft { lp with hash := newRHash }
      let newRightPairing : MappingPair R := { value := new, hash := rp.hash, id := rp.id }
      match m.right.removeEntry oldRHash (equivalentKey old) with
      | none => .error .unwrapNone
      | some (oldRp, right') =>
        return (ofPair (some oldRp.value, eqOpt),
          { m with left := left', right := right'.insert newRHash newRightPairing (·.hashWith m.hb.hr) })

/-- `swap_right_checked` — 565-571 -/
def swapRightChecked (m : CycleMap L R) (old : R) (expected : L) (new : R) :
    Res (OptionalPair R (L × R) × CycleMap L R) :=
  if !m.arePaired expected old then .ok (neither, m) else m.swapRight old new

/-- `swap_right_or_insert` — 595-619 -/
def swapRightOrInsert (m : CycleMap L R) (old new : R) (toInsert : L) :
    Res (OptionalPair R (L × R) × CycleMap L R) :=
  if (m.right.get (m.hb.hr old) (equivalentKey old)).isSome then m.swapRight old new
  else do
    match ← m.insert toInsert new with
    | (neither, m) => return (neither, m)
    | (someRight pair, m) => return (someRight pair, m)
    | _ => .error .unreachable

/-- `get_left` — 643-657 (with `get_right_inner_with_hash` — 709-716), for a borrowed key given by its hash and its comparison with stored items
(`Q: Hash + Eq + PartialEq<R>`) -/
def getLeftBy (m : CycleMap L R) (rHash : UInt64) (eq : R → Bool) : Option L :=
  match m.right.get rHash (fun x => eq x.value) with
  | none => none
  | some rp =>
    match m.left.get rp.hash (hashAndId rHash rp.id) with
    | none => none
    | some lp => some lp.value

/-- `get_left` with `Q = R` -/
def getLeft (m : CycleMap L R) (item : R) : Option L := m.getLeftBy (m.hb.hr item) (fun x => item == x)

/-- `get_right` — 669-683 (with `get_left_inner_with_hash` — 700-707), for a borrowed key given by its hash and its comparison with stored items -/
def getRightBy (m : CycleMap L R) (lHash : UInt64) (eq : L → Bool) : Option R :=
  match m.left.get lHash (fun x => eq x.value) with
  | none => none
  | some lp =>
    match m.right.get lp.hash (hashAndId lHash lp.id) with
    | none => none
    | some rp => some rp.value

/-- `get_right` with `Q = L` -/
def getRight (m : CycleMap L R) (item : L) : Option R := m.getRightBy (m.hb.hl item) (fun x => item == x)

/-- `get_left_inner` — 695-698 -/
def getLeftInner (m : CycleMap L R) (item : L) : Option (MappingPair L) :=
  m.left.get (m.hb.hl item) (equivalentKey item)

/-! ### Iterators -/

/-- `Iter` — 1185-1188: what is left of the iteration over the left table; the map reference is
passed to `next` -/
structure Iter (L : Type) where
  todo : List (MappingPair L)

/-- `iter` — 730-735 -/
def iter (m : CycleMap L R) : Iter L := ⟨m.left.toList⟩

/-- `Iter::next` — 1218-1227 -/
def Iter.next (it : Iter L) (m : CycleMap L R) : Res (Option ((L × R) × Iter L)) :=
  match it.todo with
  | [] => .ok none
  | l :: rest =>
    match m.getRight l.value with
    | none => .error .unwrapNone
    | some r => .ok (some ((l.value, r), ⟨rest⟩))

/-- `Iter::size_hint` / `len` — 1228-1242: the number of left entries still to be visited -/
def Iter.len (it : Iter L) : Nat := it.todo.length

/-- A `for` loop over an `Iter` collecting what it yields. -/
def Iter.collect (m : CycleMap L R) : List (MappingPair L) → Res (List (L × R))
  | [] => .ok []
  | l :: rest => do
    match ← Iter.next ⟨l :: rest⟩ m with
    | none => return []
    | some (p, _) => return p :: (← Iter.collect m rest)

/-- calling `next` until it returns `None`, at most `n` times -/
def Iter.take (m : CycleMap L R) : Nat → Iter L → Res (List (L × R) × Iter L)
  | 0, it => .ok ([], it)
  | n + 1, it => do
    match ← it.next m with
    | none => return ([], it)
    | some (p, it') =>
      let (ps, it'') ← Iter.take m n it'
      return (p :: ps, it'')

/-- all pairs yielded by `iter()` -/
def iterList (m : CycleMap L R) : Res (List (L × R)) := Iter.collect m m.iter.todo

/-- `SingleIter` (1253-1303): `next` yields the value of the next entry, `len` counts the entries left;
`iter_left` — 749-754 -/
def iterLeft (m : CycleMap L R) : List L := m.left.toList.map (·.value)

/-- `iter_right` — 768-773 -/
def iterRight (m : CycleMap L R) : List R := m.right.toList.map (·.value)

/-- `DrainIter` — 1309-1312 -/
structure DrainIter (L R : Type) where
  todo : List (MappingPair L)
  right : RawTable (MappingPair R)

/-- `drain` — 796-802 -/
def drain (m : CycleMap L R) : DrainIter L R := { todo := m.left.toList, right := m.right }

/-- `DrainIter::next` — 1321-1328 -/
def DrainIter.next (it : DrainIter L R) : Res (Option ((L × R) × DrainIter L R)) :=
  match it.todo with
  | [] => .ok none
  | l :: rest =>
    match it.right.removeEntry l.hash (justId l.id) with
    | none => .error .unwrapNone
    | some (r, right') => .ok (some ((l.value, r.value), { todo := rest, right := right' }))

/-- `DrainIter::len` — 1330-1342 -/
def DrainIter.len (it : DrainIter L R) : Nat := it.todo.length

/-- calling `next` until it returns `None`, at most `n` times -/
def DrainIter.take : Nat → DrainIter L R → Res (List (L × R) × DrainIter L R)
  | 0, it => .ok ([], it)
  | n + 1, it => do
    match ← it.next with
    | none => return ([], it)
    | some (p, it') =>
      let (ps, it'') ← DrainIter.take n it'
      return (p :: ps, it'')

/-- `drain()`, at most `n` calls of `next`, then the iterator is dropped.  `drain` resets the counter
(797).  `DrainIter` has no `Drop`; its `RawDrain` empties the left table when dropped, the right table
is only borrowed. -/
def drainTake (m : CycleMap L R) (n : Nat) : Res (List (L × R) × CycleMap L R) := do
  let (ps, it) ← DrainIter.take n m.drain
  return (ps, { m with counter := 0, left := m.left.clear, right := it.right })

/-- `DrainFilterIter` / `DrainFilterInner` — 1354-1361, 1404-1408.  The left table being iterated is
`kept ++ todo`: entries already visited that stayed, and entries still to be visited (removing the
visited bucket does not disturb a `RawIter`); `drainFilterTake` puts it back.  `st` is the captured state of the closure. -/
structure DrainFilter (σ L R : Type) where
  kept : List (UInt64 × MappingPair L)
  todo : List (UInt64 × MappingPair L)
  right : RawTable (MappingPair R)
  st : σ

/-- `DrainFilterInner::next` — 1411-1430 -/
def DrainFilter.next {σ : Type} (f : σ → L → R → Bool × σ) (kept todo : List (UInt64 × MappingPair L))
    (right : RawTable (MappingPair R)) (st : σ) :
    Res (Option (L × R) × DrainFilter σ L R) :=
  match todo with
  | [] => .ok (none, { kept := kept, todo := [], right := right, st := st })
  | e :: rest =>
    match right.removeEntry e.2.hash (justId e.2.id) with
    | none => .error .unwrapNone
    | some (r, right') =>
      match f st e.2.value r.value with
      | (true, st') =>
        .ok (some (e.2.value, r.value), { kept := kept, todo := rest, right := right', st := st' })
      | (false, st') => DrainFilter.next f (kept ++ [e]) rest right st'

/-- `DrainFilterIter::size_hint` — 1395-1398: `(0, Some(n))` for the number `n` of left entries still to be visited -/
def DrainFilter.sizeHint {σ : Type} (it : DrainFilter σ L R) : Nat := it.todo.length

/-- calling `next` until it returns `None`, at most `n` times -/
def DrainFilter.take {σ : Type} (f : σ → L → R → Bool × σ) :
    Nat → DrainFilter σ L R → Res (List (L × R) × DrainFilter σ L R)
  | 0, it => .ok ([], it)
  | n + 1, it => do
    match ← DrainFilter.next f it.kept it.todo it.right it.st with
    | (none, it') => return ([], it')
    | (some p, it') =>
      let (ps, it'') ← DrainFilter.take f n it'
      return (p :: ps, it'')

/-- which elements of a table are among the entries `es` that an iterator leaves: they are recognised by their ids -/
def stays {T : Type} (t : RawTable (MappingPair T)) (es : List (UInt64 × MappingPair T)) : List Bool :=
  t.entries.map fun e => es.any (·.2.id == e.2.id)

/-- `drain_filter(f)` (830-842), at most `n` calls of `next` (1391-1393), then `Drop` (1368-1374), which calls
`next` until it returns `None` (dropping the items does not panic, so `ConsumeAllOnDrop`, 1377-1383, has nothing to do); every `Some` consumes an entry, so `todo.length + 1` calls are enough.
Returns the yielded pairs, the final closure state and the map. -/
def drainFilterTake {σ : Type} (m : CycleMap L R) (f : σ → L → R → Bool × σ) (st : σ) (n : Nat) :
    Res (List (L × R) × σ × CycleMap L R) := do
  let (ps, it) ← DrainFilter.take f n { kept := [], todo := m.left.entries, right := m.right, st := st }
  let (_, it) ← DrainFilter.take f (it.todo.length + 1) it
  return (ps, it.st, { m with left := RawImpl.touch (.erase (stays m.left (it.kept ++ it.todo))) { m.left with entries := it.kept ++ it.todo },
                              right := it.right })

/-- first loop of `retain` — 865-873: visit all pairs, remember the keys of those to drop -/
def retainScan {σ : Type} (m : CycleMap L R) (f : σ → L → R → Bool × σ) :
    List (MappingPair L) → σ → Res (List (UInt64 × UInt64 × Nat) × σ)
  | [], st => .ok ([], st)
  | l :: rest, st => do
    match ← Iter.next ⟨l :: rest⟩ m with
    | none => return ([], st)
    | some ((left, right), _) =>
      match f st left right with
      | (true, st') => retainScan m f rest st'
      | (false, st') =>
        match m.getLeftInner left with
        | none => .error .unwrapNone
        | some lp =>
          let (d, st'') ← retainScan m f rest st'
          return ((m.hb.hl left, m.hb.hr right, lp.id) :: d, st'')

/-- second loop of `retain` — 874-876 -/
def retainDrop (m : CycleMap L R) : List (UInt64 × UInt64 × Nat) → Res (CycleMap L R)
  | [] => .ok m
  | (lHash, rHash, id) :: rest => do
    let (_, m) ← m.removeViaHashesAndId lHash rHash id
    retainDrop m rest

/-- `retain` — 861-877; also returns the final closure state -/
def retain {σ : Type} (m : CycleMap L R) (f : σ → L → R → Bool × σ) (st : σ) : Res (σ × CycleMap L R) := do
  let (toDrop, st) ← retainScan m f m.iter.todo st
  let m ← retainDrop m toDrop
  return (st, m)

/-! ### Capacity -/

/-- `shrink_to` — 900-905 -/
def shrinkTo (m : CycleMap L R) (n : Nat) : CycleMap L R :=
  { m with left := m.left.shrinkTo n (·.hashWith m.hb.hl), right := m.right.shrinkTo n (·.hashWith m.hb.hr) }

/-- `shrink_to_fit` — 922-927 -/
def shrinkToFit (m : CycleMap L R) : CycleMap L R :=
  let left' := m.left.shrinkTo m.len (·.hashWith m.hb.hl)
  { m with left := left', right := m.right.shrinkTo left'.len (·.hashWith m.hb.hr) }

/-- `reserve` — 941-946 -/
def reserve (m : CycleMap L R) (n : Nat) : CycleMap L R :=
  { m with left := m.left.reserve n (·.hashWith m.hb.hl), right := m.right.reserve n (·.hashWith m.hb.hr) }

/-- `try_reserve` — 960-966; whether each allocation succeeds is an input -/
def tryReserve (m : CycleMap L R) (n : Nat) (okLeft okRight : Bool) : Bool × CycleMap L R :=
  if okLeft then
    let m := { m with left := m.left.reserve n (·.hashWith m.hb.hl) }
    if okRight then (true, { m with right := m.right.reserve n (·.hashWith m.hb.hr) }) else (false, m)
  else (false, m)

/-! ### Traits -/

/-- `Clone for MappingPair` — 1460-1468; the `Clone` of the item is a parameter -/
def MappingPair.clone {T : Type} (c : T → T) (x : MappingPair T) : MappingPair T :=
  { value := c x.value, hash := x.hash, id := x.id }

/-- `Clone` — 1106-1113; the `Clone` implementations of the items are parameters -/
def clone (cl : L → L) (cr : R → R) (m : CycleMap L R) : CycleMap L R :=
  { left := m.left.clone (MappingPair.clone cl), right := m.right.clone (MappingPair.clone cr),
    counter := m.counter, hb := m.hb }

/-- `self.iter().all(|(l, r)| other.are_paired(l, r))`, short-circuiting -/
def allPaired (m other : CycleMap L R) : List (MappingPair L) → Res Bool
  | [] => .ok true
  | l :: rest => do
    match ← Iter.next ⟨l :: rest⟩ m with
    | none => return true
    | some ((left, right), _) => if other.arePaired left right then allPaired m other rest else return false

/-- `PartialEq::eq` — 1142-1147 -/
def eq (m other : CycleMap L R) : Res Bool :=
  if m.len != other.len then .ok false else allPaired m other m.iter.todo

/-- `Extend::extend` — 1165-1169 -/
def extend (m : CycleMap L R) : List (L × R) → Res (CycleMap L R)
  | [] => .ok m
  | (l, r) :: rest => do
    let (_, m) ← m.insert l r
    extend m rest

/-- `FromIterator::from_iter` — 1177-1181; the default hash builder is a parameter -/
def fromIter (hb : BuildHasher L R) (xs : List (L × R)) : Res (CycleMap L R) :=
  (withHasher hb).extend xs

end Verif.CycleMap
