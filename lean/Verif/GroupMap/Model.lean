import Verif.Raw
/-
Model of `/repo/src/group_map.rs`, function by function.  Line numbers refer to that file.
`&mut self` methods return the new map; `unwrap()` on `None` is `.error .unwrapNone`.
References are modelled by the values they point to.  `ID(u64)` is a `Nat` here (see C32).

Two kinds of `hashbrown::HashSet` occur.  `HashSet<(u64, ID)>` (the `pairs` of a right item) is modelled by its
contract: exact membership, and an arbitrary iteration order (`RawImpl.touch` may reorder at every change).
`HashSet<L>` only occurs as a result; it is the list of its elements.
-/
namespace Verif.GroupMap

/-- `HashSet<(u64, ID)>`: the entries are the elements `(hash, id)` -/
abbrev PairSet := RawTable Nat

namespace PairSet
variable [RawImpl]

/-- `HashSet::new` / `with_capacity` -/
def new (n : Nat) : PairSet := RawTable.withCapacity n

/-- `HashSet::contains` -/
def contains (s : PairSet) (p : UInt64 × Nat) : Bool := s.entries.contains p

/-- `HashSet::insert` -/
def insert (s : PairSet) (p : UInt64 × Nat) : PairSet :=
  if s.contains p then s else RawImpl.touch (.insert p.1) { s with entries := p :: s.entries }

/-- `HashSet::remove` -/
def remove (s : PairSet) (p : UInt64 × Nat) : PairSet :=
  if s.contains p then RawImpl.touch (.erase (s.entries.map (· != p))) { s with entries := s.entries.erase p } else s

/-- `HashSet::is_empty` -/
def isEmpty (s : PairSet) : Bool := s.entries.isEmpty

/-- `s.drain().collect()`: the collected set -/
def collect (s : PairSet) : PairSet := RawImpl.touch (.new s.len) { entries := s.entries }

end PairSet

/-- `iter.collect::<HashSet<T>>()`: of equal elements the first one stays -/
def collectSet {T : Type} [BEq T] (xs : List T) : List T :=
  xs.foldl (fun s x => if s.any (x == ·) then s else s ++ [x]) []

/-- `LeftItem<T>` — 60-65: an item, the hash and the id of its right item, its own id -/
structure LeftItem (T : Type) where
  value : T
  hash : UInt64
  rid : Nat
  id : Nat

/-- `RightItem<T>` — 68-72: an item, hash and id of the left items paired with it, its own id -/
structure RightItem (T : Type) where
  value : T
  pairs : PairSet
  id : Nat

/-- `make_hasher::<LeftItem<T>, S>` — utils.rs 16-22, with `Hash for LeftItem` — 1694-1698: what a table hashes
when it moves its elements -/
def LeftItem.hashWith {T : Type} (h : T → UInt64) (x : LeftItem T) : UInt64 := h x.value

/-- `make_hasher::<RightItem<T>, S>` with `Hash for RightItem` — 1736-1740 -/
def RightItem.hashWith {T : Type} (h : T → UInt64) (x : RightItem T) : UInt64 := h x.value

/-- `LeftItem::extract` — 1687-1691 -/
def LeftItem.extract {T : Type} (x : LeftItem T) : T := x.value

/-- `PartialEq for LeftItem` — 1700-1704 (hash and id of the right item are not compared) -/
def LeftItem.beq {T : Type} [BEq T] (x y : LeftItem T) : Bool := x.id == y.id && x.value == y.value

/-- `RightItem::extract` — 1729-1733 -/
def RightItem.extract {T : Type} (x : RightItem T) : T := x.value

/-- `PartialEq for RightItem` — 1742-1746 (the set of pairs is not compared) -/
def RightItem.beq {T : Type} [BEq T] (x y : RightItem T) : Bool := x.id == y.id && x.value == y.value

/-- `equivalent_key_left` — 23-27 -/
def equivalentKeyLeft {T : Type} [BEq T] (k : T) (x : LeftItem T) : Bool := x.value == k

/-- `equivalent_key_right` — 29-33 -/
def equivalentKeyRight {T : Type} [BEq T] (k : T) (x : RightItem T) : Bool := x.value == k

/-- `left_with_left_id` — 35-37 -/
def leftWithLeftId {T : Type} (id : Nat) (x : LeftItem T) : Bool := x.id == id

/-- `right_with_left_pair` — 45-49 -/
def rightWithLeftPair {T : Type} [RawImpl] (pair : UInt64 × Nat) (x : RightItem T) : Bool := x.pairs.contains pair

/-- `right_with_right_id` — 51-53 -/
def rightWithRightId {T : Type} (id : Nat) (x : RightItem T) : Bool := x.id == id

/-- `GroupMap<L, R, St>` — 152-158; the counters of type `ID` (with `AddAssign` — 1770-1774) are `Nat`s here (see C32) -/
structure _root_.Verif.GroupMap (L R : Type) [BEq L] [BEq R] where
  hb : BuildHasher L R
  leftCounter : Nat
  rightCounter : Nat
  left : RawTable (LeftItem L)
  right : RawTable (RightItem R)

variable [RawImpl] {L R : Type} [BEq L] [BEq R]

/-- `with_hasher` — 1105-1113 (and `new`: 170-172, `default`: 1045-1047) -/
def withHasher (hb : BuildHasher L R) : GroupMap L R :=
  { hb := hb, leftCounter := 0, rightCounter := 0, left := RawTable.withCapacity 0, right := RawTable.withCapacity 0 }

/-- `with_capacity_and_hasher` — 1136-1144 (and `with_capacity`: 182-184) -/
def withCapacityAndHasher (n : Nat) (hb : BuildHasher L R) : GroupMap L R :=
  { hb := hb, leftCounter := 0, rightCounter := 0, left := RawTable.withCapacity n, right := RawTable.withCapacity n }

/-- `len_left` — 1189-1191 -/
def lenLeft (m : GroupMap L R) : Nat := m.left.len

/-- `len_right` — 1205-1207 -/
def lenRight (m : GroupMap L R) : Nat := m.right.len

/-- `is_empty` — 1227-1229 -/
def isEmpty (m : GroupMap L R) : Bool := m.lenLeft + m.lenRight == 0

/-- `capacity_left` — 1159-1162 -/
def capacityLeft (m : GroupMap L R) : Nat := m.left.capacity

/-- `capacity_right` — 1172-1175 -/
def capacityRight (m : GroupMap L R) : Nat := m.right.capacity

/-- `hasher` — 1147-1149 -/
def hasher (m : GroupMap L R) : BuildHasher L R := m.hb

/-- `clear` — 1244-1247 -/
def clear (m : GroupMap L R) : GroupMap L R := { m with left := m.left.clear, right := m.right.clear }

/-- `is_right_paired` — 605-612 -/
def isRightPaired (m : GroupMap L R) (right : R) : Bool :=
  match m.right.get (m.hb.hr right) (equivalentKeyRight right) with
  | some r => !r.pairs.isEmpty
  | none => false

/-- `are_paired` — 625-636 -/
def arePaired (m : GroupMap L R) (left : L) (right : R) : Bool :=
  let lHash := m.hb.hl left
  let rHash := m.hb.hr right
  match m.left.get lHash (equivalentKeyLeft left), m.right.get rHash (equivalentKeyRight right) with
  | some l, some r => l.hash == rHash && r.pairs.contains (lHash, l.id)
  | _, _ => false

/-- `contains_left` — 649-652 -/
def containsLeft (m : GroupMap L R) (left : L) : Bool :=
  (m.left.get (m.hb.hl left) (equivalentKeyLeft left)).isSome

/-- `contains_right` — 667-672 -/
def containsRight (m : GroupMap L R) (right : R) : Bool :=
  (m.right.get (m.hb.hr right) (equivalentKeyRight right)).isSome

/-- `remove_left` — 706-718 -/
def removeLeft (m : GroupMap L R) (item : L) : Res (Option L × GroupMap L R) :=
  let lHash := m.hb.hl item
  match m.left.removeEntry lHash (equivalentKeyLeft item) with
  | none => .ok (none, m)
  | some (l, left') =>
    let pair := (lHash, l.id)
    match m.right.getMut l.hash (rightWithLeftPair pair) with
    | none => .error .unwrapNone
    | some (r, writeR) =>
      .ok (some l.value, { m with left := left', right := writeR { r with pairs := r.pairs.remove pair } })

/-- the closure `.map(|(h, i)| self.left_set.remove_entry(*h, left_with_left_id(*i)).unwrap().extract())`
run over the pairs of a right item — 740-749, 758-767 -/
def removeAll (left : RawTable (LeftItem L)) : List (UInt64 × Nat) → Res (List L × RawTable (LeftItem L))
  | [] => .ok ([], left)
  | (h, i) :: rest =>
    match left.removeEntry h (leftWithLeftId i) with
    | none => .error .unwrapNone
    | some (l, left') => do
      let (ls, left'') ← removeAll left' rest
      return (l.value :: ls, left'')

/-- `remove_right` — 735-751 -/
def removeRight (m : GroupMap L R) (item : R) : Res (Option (List L × R) × GroupMap L R) :=
  match m.right.removeEntry (m.hb.hr item) (equivalentKeyRight item) with
  | none => .ok (none, m)
  | some (r, right') => do
    let (ls, left') ← removeAll m.left r.pairs.entries
    return (some (collectSet ls, r.value), { m with left := left', right := right' })

/-- `remove` — 687-693 -/
def remove (m : GroupMap L R) (left : L) (right : R) : Res (Option (List L × R) × GroupMap L R) :=
  if m.arePaired left right then m.removeRight right else .ok (none, m)

/-- `remove_via_hash_and_id` — 754-769 -/
def removeViaHashAndId (m : GroupMap L R) (rHash : UInt64) (id : Nat) :
    Res (Option (List L × R) × GroupMap L R) :=
  match m.right.removeEntry rHash (rightWithRightId id) with
  | none => .ok (none, m)
  | some (r, right') => do
    let (ls, left') ← removeAll m.left r.pairs.entries
    return (some (ls, r.value), { m with left := left', right := right' })

/-- `insert` — 231-303 -/
def insert (m : GroupMap L R) (left : L) (right : R) : Res (GroupMap L R) :=
  let lHash := m.hb.hl left
  let rHash := m.hb.hr right
  match m.left.getMut lHash (equivalentKeyLeft left), m.right.getMut rHash (equivalentKeyRight right) with
  | none, none =>
    let leftItem : LeftItem L := { value := left, hash := rHash, rid := m.rightCounter, id := m.leftCounter }
    let set := (PairSet.new 1).insert (lHash, m.leftCounter)
    let rightItem : RightItem R := { value := right, pairs := set, id := m.rightCounter }
    .ok { m with left := m.left.insert lHash leftItem (·.hashWith m.hb.hl), right := m.right.insert rHash rightItem (·.hashWith m.hb.hr),
                 leftCounter := m.leftCounter + 1, rightCounter := m.rightCounter + 1 }
  | some (l, writeL), none =>
    let pair := (lHash, l.id)
    match m.right.getMut l.hash (rightWithLeftPair pair) with
    | none => .error .unwrapNone
    | some (r, writeR) =>
      let left' := writeL { l with hash := rHash, rid := m.rightCounter }
      let right' := writeR { r with pairs := r.pairs.remove pair }
      let set := (PairSet.new 1).insert pair
      let rightItem : RightItem R := { value := right, pairs := set, id := m.rightCounter }
      .ok { m with left := left', right := right'.insert rHash rightItem (·.hashWith m.hb.hr), rightCounter := m.rightCounter + 1 }
  | none, some (r, writeR) =>
    let right' := writeR { r with pairs := r.pairs.insert (lHash, m.leftCounter) }
    let leftItem : LeftItem L := { value := left, hash := rHash, rid := r.id, id := m.leftCounter }
    .ok { m with left := m.left.insert lHash leftItem (·.hashWith m.hb.hl), right := right', leftCounter := m.leftCounter + 1 }
  | some (l, writeL), some (r, writeR) =>
    let pair := (lHash, l.id)
    let right' := writeR { r with pairs := r.pairs.insert pair }
    let newRId := r.id
    match right'.getMut l.hash (rightWithRightId l.rid) with
    | none => .error .unwrapNone
    | some (r', writeR') =>
      .ok { m with left := writeL { l with hash := rHash, rid := newRId },
                   right := writeR' { r' with pairs := r'.pairs.remove pair } }

/-- `insert_remove` — 341-367 -/
def insertRemove (m : GroupMap L R) (left : L) (right : R) :
    Res ((Option L × Option (List L × R)) × GroupMap L R) := do
  let (optFromLeft, m) ← m.removeLeft left
  let (optFromRight, m) ← m.removeRight right
  let lHash := m.hb.hl left
  let rHash := m.hb.hr right
  let leftItem : LeftItem L := { value := left, hash := rHash, id := m.leftCounter, rid := m.rightCounter }
  let set := (PairSet.new 1).insert (lHash, m.leftCounter)
  let rightItem : RightItem R := { value := right, pairs := set, id := m.rightCounter }
  return ((optFromLeft, optFromRight),
    { m with leftCounter := m.leftCounter + 1, rightCounter := m.rightCounter + 1,
             left := m.left.insert lHash leftItem (·.hashWith m.hb.hl), right := m.right.insert rHash rightItem (·.hashWith m.hb.hr) })

/-- `insert_left` — 385-407 -/
def insertLeft (m : GroupMap L R) (left : L) (right : R) : Res (Option L × GroupMap L R) :=
  let rHash := m.hb.hr right
  match m.right.getMut rHash (equivalentKeyRight right) with
  | none => .ok (none, m)
  | some (r, writeR) => do
    let rightId := r.id
    let lHash := m.hb.hl left
    let m := { m with right := writeR { r with pairs := r.pairs.insert (lHash, m.leftCounter) } }
    let (digest, m) ← m.removeLeft left
    let leftItem : LeftItem L := { value := left, hash := rHash, id := m.leftCounter, rid := rightId }
    return (digest, { m with leftCounter := m.leftCounter + 1, left := m.left.insert lHash leftItem (·.hashWith m.hb.hl) })

/-- `insert_right` — 434-449 -/
def insertRight (m : GroupMap L R) (right : R) : Res (Option (List L × R) × GroupMap L R) := do
  let (digest, m) ← m.removeRight right
  let rHash := m.hb.hr right
  let rightItem : RightItem R := { value := right, pairs := PairSet.new 0, id := m.rightCounter }
  return (digest, { m with rightCounter := m.rightCounter + 1, right := m.right.insert rHash rightItem (·.hashWith m.hb.hr) })

/-- the loop `for (hash, id) in set { self.left_set.get_mut(..).unwrap().hash = new_hash; }` — 489-494, 536-541 -/
def rehashAll (newHash : UInt64) (left : RawTable (LeftItem L)) : List (UInt64 × Nat) → Res (RawTable (LeftItem L))
  | [] => .ok left
  | (h, i) :: rest =>
    match left.getMut h (leftWithLeftId i) with
    | none => .error .unwrapNone
    | some (l, writeL) => rehashAll newHash (writeL { l with hash := newHash }) rest

/-- `swap_right` — 472-497: `r_id` of the left items is not updated -/
def swapRight (m : GroupMap L R) (old new : R) : Res (GroupMap L R) :=
  match m.right.getMut (m.hb.hr old) (equivalentKeyRight old) with
  | none => do let (_, m) ← m.insertRight new; return m
  | some (r, writeR) => do
    let set := r.pairs.collect
    let right' := writeR { r with pairs := r.pairs.clear }
    let newHash := m.hb.hr new
    let item : RightItem R := { value := new, pairs := set, id := m.rightCounter }
    let left' ← rehashAll newHash m.left set.entries
    return { m with left := left', right := right'.insert newHash item (·.hashWith m.hb.hr), rightCounter := m.rightCounter + 1 }

/-- `swap_right_remove` — 515-545: `r_id` of the left items is not updated -/
def swapRightRemove (m : GroupMap L R) (old new : R) : Res (Option R × GroupMap L R) :=
  match m.right.removeEntry (m.hb.hr old) (equivalentKeyRight old) with
  | none => do let (_, m) ← m.insertRight new; return (none, m)
  | some (r, right') => do
    let set := r.pairs.collect
    let newHash := m.hb.hr new
    let item : RightItem R := { value := new, pairs := set, id := m.rightCounter }
    let left' ← rehashAll newHash m.left set.entries
    return (some r.value, { m with left := left', right := right'.insert newHash item (·.hashWith m.hb.hr), rightCounter := m.rightCounter + 1 })

/-- `pair` — 562-591 -/
def pair (m : GroupMap L R) (left : L) (right : R) : Res (Bool × GroupMap L R) :=
  let lHash := m.hb.hl left
  let rHash := m.hb.hr right
  match m.left.getMut lHash (equivalentKeyLeft left), m.right.get rHash (equivalentKeyRight right) with
  | some (l, writeL), some r =>
    let left' := writeL { l with hash := rHash, rid := r.id }
    match m.right.getMut l.hash (rightWithRightId l.rid) with
    | none => .error .unwrapNone
    | some (oldR, writeOld) =>
      let right' := writeOld { oldR with pairs := oldR.pairs.remove (lHash, l.id) }
      match right'.getMut rHash (equivalentKeyRight right) with
      | none => .error .unwrapNone
      | some (newR, writeNew) =>
        .ok (true, { m with left := left', right := writeNew { newR with pairs := newR.pairs.insert (lHash, l.id) } })
  | _, _ => .ok (false, m)

/-- `get_right` — 812-826, for a borrowed key given by its hash and its comparison with stored items -/
def getRightBy (m : GroupMap L R) (lHash : UInt64) (eq : L → Bool) : Option R :=
  match m.left.get lHash (fun x => eq x.value) with
  | none => none
  | some l => (m.right.get l.hash (rightWithRightId l.rid)).map (·.value)

/-- `get_right` with `Q = L` -/
def getRight (m : GroupMap L R) (item : L) : Option R := m.getRightBy (m.hb.hl item) (fun x => x == item)

/-- `get_left_inner_with_hash` — 829-835 -/
def getLeftInnerWithHash (m : GroupMap L R) (item : L) (hash : UInt64) : Option (LeftItem L) :=
  m.left.get hash (equivalentKeyLeft item)

/-- `get_right_inner_with_hash` — 838-844 -/
def getRightInnerWithHash (m : GroupMap L R) (item : R) (hash : UInt64) : Option (RightItem R) :=
  m.right.get hash (equivalentKeyRight item)

/-! ### Iterators -/

/-- `PairIter` — 1630-1634: the pairs still to be visited -/
structure PairIter where
  todo : List (UInt64 × Nat)

/-- `get_left_iter` — 787-799, for a borrowed key given by its hash and its comparison with stored items -/
def getLeftIterBy (m : GroupMap L R) (rHash : UInt64) (eq : R → Bool) : Option PairIter :=
  (m.right.get rHash (fun x => eq x.value)).map fun r => ⟨r.pairs.entries⟩

/-- `get_left_iter` with `Q = R` -/
def getLeftIter (m : GroupMap L R) (item : R) : Option PairIter :=
  m.getLeftIterBy (m.hb.hr item) (fun x => x == item)

/-- `PairIter::next` — 1661-1670 -/
def PairIter.next (it : PairIter) (m : GroupMap L R) : Res (Option (L × PairIter)) :=
  match it.todo with
  | [] => .ok none
  | (hash, id) :: rest =>
    match m.left.get hash (leftWithLeftId id) with
    | none => .error .unwrapNone
    | some l => .ok (some (l.value, ⟨rest⟩))

/-- `PairIter::len` — 1680-1682, and `size_hint` — 1671-1673 -/
def PairIter.len (it : PairIter) : Nat := it.todo.length

/-- calling `next` until it returns `None`, at most `n` times -/
def PairIter.take (m : GroupMap L R) : Nat → PairIter → Res (List L × PairIter)
  | 0, it => .ok ([], it)
  | n + 1, it => do
    match ← it.next m with
    | none => return ([], it)
    | some (l, it') =>
      let (ls, it'') ← PairIter.take m n it'
      return (l :: ls, it'')

/-- all left items yielded by `get_left_iter(item)` -/
def getLeftList (m : GroupMap L R) (item : R) : Res (Option (List L)) :=
  match m.getLeftIter item with
  | none => .ok none
  | some it => do
    let (ls, _) ← PairIter.take m (it.len + 1) it
    return some ls

/-- `Iter` — 1307-1311: the right items still to be visited, and the pairs of the current one -/
structure Iter (R : Type) where
  todo : List (RightItem R)
  cur : Option (List (UInt64 × Nat))

/-- `iter` — 864-870 -/
def iter (m : GroupMap L R) : Iter R := ⟨m.right.toList, none⟩

/-- `Iter::clone` — 1313-1321: the pairs of the current right item are forgotten -/
def Iter.clone (it : Iter R) : Iter R := { it with cur := none }

/-- second part of `Iter::next` — 1358-1376 -/
def Iter.nextRight (it : Iter R) (m : GroupMap L R) : Option ((Option L × R) × Iter R) :=
  match it.todo with
  | [] => none
  | r :: rest =>
    match r.pairs.entries with
    | [] => some ((none, r.value), ⟨rest, it.cur⟩)
    | p :: ps => some (((m.left.get p.1 (leftWithLeftId p.2)).map (·.value), r.value), ⟨rest, some ps⟩)

/-- `Iter::next` — 1342-1377 -/
def Iter.next (it : Iter R) (m : GroupMap L R) : Res (Option ((Option L × R) × Iter R)) :=
  match it.cur with
  | some (p :: ps) =>
    match m.left.get p.1 (leftWithLeftId p.2) with
    | none => .error .unwrapNone
    | some l =>
      match m.right.get l.hash (rightWithRightId l.rid) with
      | none => .error .unwrapNone
      | some r => .ok (some ((some l.value, r.value), { it with cur := some ps }))
  | _ => .ok (it.nextRight m)

/-- `Iter::size_hint` — 1379-1381: `(n, Some(n))` for the number `n` of right items still to be visited -/
def Iter.sizeHint (it : Iter R) : Nat := it.todo.length

/-- calling `next` until it returns `None`, at most `n` times -/
def Iter.take (m : GroupMap L R) : Nat → Iter R → Res (List (Option L × R) × Iter R)
  | 0, it => .ok ([], it)
  | n + 1, it => do
    match ← it.next m with
    | none => return ([], it)
    | some (x, it') =>
      let (xs, it'') ← Iter.take m n it'
      return (x :: xs, it'')

/-- a bound on the number of `Some`s an `Iter` can yield -/
def Iter.fuel (it : Iter R) : Nat := (it.cur.getD []).length + (it.todo.map fun r => r.pairs.len + 1).sum

/-- `Iter::len` — 1390-1392: `self.clone().count()` -/
def Iter.len (it : Iter R) (m : GroupMap L R) : Res Nat := do
  let (xs, _) ← Iter.take m (it.clone.fuel + 1) it.clone
  return xs.length

/-- everything yielded by `iter()` -/
def iterList (m : GroupMap L R) : Res (List (Option L × R)) := do
  let (xs, _) ← Iter.take m (m.iter.fuel + 1) m.iter
  return xs

/-- `PairedIter` — 1404-1407 -/
structure PairedIter (L : Type) where
  todo : List (LeftItem L)

/-- `iter_paired` — 886-891 -/
def iterPaired (m : GroupMap L R) : PairedIter L := ⟨m.left.toList⟩

/-- `PairedIter::next` — 1437-1450 -/
def PairedIter.next (it : PairedIter L) (m : GroupMap L R) : Res (Option ((L × R) × PairedIter L)) :=
  match it.todo with
  | [] => .ok none
  | l :: rest =>
    match m.right.get l.hash (rightWithRightId l.rid) with
    | none => .error .unwrapNone
    | some r => .ok (some ((l.value, r.value), ⟨rest⟩))

/-- calling `next` until it returns `None`, at most `n` times -/
def PairedIter.take (m : GroupMap L R) : Nat → PairedIter L → Res (List (L × R) × PairedIter L)
  | 0, it => .ok ([], it)
  | n + 1, it => do
    match ← it.next m with
    | none => return ([], it)
    | some (x, it') =>
      let (xs, it'') ← PairedIter.take m n it'
      return (x :: xs, it'')

/-- `PairedIter::size_hint` — 1452-1454: `(n, Some(n))` -/
def PairedIter.sizeHint (it : PairedIter L) : Nat := it.todo.length

/-- `PairedIter::len` — 1463-1465: `self.clone().count()` -/
def PairedIter.len (it : PairedIter L) (m : GroupMap L R) : Res Nat := do
  let (xs, _) ← PairedIter.take m (it.todo.length + 1) it
  return xs.length

/-- all pairs yielded by `iter_paired()` -/
def iterPairedList (m : GroupMap L R) : Res (List (L × R)) := do
  let (xs, _) ← PairedIter.take m (m.left.len + 1) m.iterPaired
  return xs

/-- `UnpairedIter` — 1477-1480 -/
structure UnpairedIter (R : Type) where
  todo : List (RightItem R)

/-- `iter_unpaired` — 907-912 -/
def iterUnpaired (m : GroupMap L R) : UnpairedIter R := ⟨m.right.toList⟩

/-- `UnpairedIter::next` — 1510-1517 -/
def UnpairedIter.next : List (RightItem R) → Option (R × UnpairedIter R)
  | [] => none
  | r :: rest => if r.pairs.isEmpty then some (r.value, ⟨rest⟩) else UnpairedIter.next rest

/-- calling `next` until it returns `None`, at most `n` times -/
def UnpairedIter.take : Nat → UnpairedIter R → List R × UnpairedIter R
  | 0, it => ([], it)
  | n + 1, it =>
    match UnpairedIter.next it.todo with
    | none => ([], ⟨[]⟩)
    | some (r, it') => (r :: (UnpairedIter.take n it').1, (UnpairedIter.take n it').2)

/-- `UnpairedIter::size_hint` — 1519-1521: `(n, Some(n))` for the number `n` of right items left -/
def UnpairedIter.sizeHint (it : UnpairedIter R) : Nat := it.todo.length

/-- `UnpairedIter::len` — 1530-1532: `self.clone().count()` -/
def UnpairedIter.len (it : UnpairedIter R) : Nat := (UnpairedIter.take (it.todo.length + 1) it).1.length

/-- all items yielded by `iter_unpaired()` -/
def iterUnpairedList (m : GroupMap L R) : List R := (UnpairedIter.take (m.right.len + 1) m.iterUnpaired).1

/-- `LeftIter` (1544-1584): `next` yields the value of the next entry, `len` and `size_hint` count the entries
left; `iter_left` — 927-932 -/
def iterLeft (m : GroupMap L R) : List L := m.left.toList.map (·.value)

/-- `RightIter` (1587-1627) and `iter_right` — 947-952 -/
def iterRight (m : GroupMap L R) : List R := m.right.toList.map (·.value)

/-! ### Retaining -/

/-- first loop of `retain_paired` — 978-984, over what `iter_paired` yields -/
def retainPairedScan {σ : Type} (m : GroupMap L R) (f : σ → L → R → Bool × σ) :
    List (L × R) → σ → Res (List (UInt64 × Nat) × σ)
  | [], st => .ok ([], st)
  | (l, r) :: rest, st =>
    match f st l r with
    | (true, st') =>
      match m.getLeftInnerWithHash l (m.hb.hl l) with
      | none => .error .unwrapNone
      | some item => do
        let (d, st'') ← retainPairedScan m f rest st'
        return ((m.hb.hl l, item.id) :: d, st'')
    | (false, st') => retainPairedScan m f rest st'

/-- second loop of `retain_paired` — 985-987: the left entries go, the right items are not updated -/
def retainPairedDrop (left : RawTable (LeftItem L)) : List (UInt64 × Nat) → RawTable (LeftItem L)
  | [] => left
  | (h, i) :: rest =>
    match left.removeEntry h (leftWithLeftId i) with
    | none => retainPairedDrop left rest
    | some (_, left') => retainPairedDrop left' rest

/-- `retain_paired` — 972-988; also returns the final closure state -/
def retainPaired {σ : Type} (m : GroupMap L R) (f : σ → L → R → Bool × σ) (st : σ) : Res (σ × GroupMap L R) := do
  let ps ← m.iterPairedList
  let (toDrop, st) ← retainPairedScan m f ps st
  return (st, { m with left := retainPairedDrop m.left toDrop })

/-- first loop of `retain_unpaired` — 1011-1017, over what `iter_unpaired` yields -/
def retainUnpairedScan {σ : Type} (m : GroupMap L R) (f : σ → R → Bool × σ) :
    List R → σ → Res (List (UInt64 × Nat) × σ)
  | [], st => .ok ([], st)
  | r :: rest, st =>
    match f st r with
    | (true, st') =>
      match m.getRightInnerWithHash r (m.hb.hr r) with
      | none => .error .unwrapNone
      | some item => do
        let (d, st'') ← retainUnpairedScan m f rest st'
        return ((m.hb.hr r, item.id) :: d, st'')
    | (false, st') => retainUnpairedScan m f rest st'

/-- second loop of `retain_unpaired` — 1018-1020 -/
def retainUnpairedDrop (m : GroupMap L R) : List (UInt64 × Nat) → Res (GroupMap L R)
  | [] => .ok m
  | (h, i) :: rest => do
    let (_, m) ← m.removeViaHashAndId h i
    retainUnpairedDrop m rest

/-- `retain_unpaired` — 1005-1021; also returns the final closure state -/
def retainUnpaired {σ : Type} (m : GroupMap L R) (f : σ → R → Bool × σ) (st : σ) : Res (σ × GroupMap L R) := do
  let (toDrop, st) ← retainUnpairedScan m f m.iterUnpairedList st
  let m ← retainUnpairedDrop m toDrop
  return (st, m)

/-! ### Traits -/

/-- `Clone for LeftItem` — 1708-1717; the `Clone` of the item is a parameter -/
def LeftItem.clone {T : Type} (c : T → T) (x : LeftItem T) : LeftItem T := { x with value := c x.value }

/-- `Clone for RightItem` — 1750-1758; the `Clone` of the item is a parameter -/
def RightItem.clone {T : Type} (c : T → T) (x : RightItem T) : RightItem T := { x with value := c x.value }

/-- `Clone` — 1024-1039; the `Clone` implementations of the items are parameters -/
def clone (cl : L → L) (cr : R → R) (m : GroupMap L R) : GroupMap L R :=
  { left := m.left.clone (LeftItem.clone cl), right := m.right.clone (RightItem.clone cr),
    leftCounter := m.leftCounter, rightCounter := m.rightCounter, hb := m.hb }

/-- the closure of `eq` — 1071-1074 -/
def eqEntry (other : GroupMap L R) : Option L × R → Bool
  | (some l, r) => other.arePaired l r
  | (none, r) => !other.isRightPaired r

/-- `iter().all(..)`: calls `next` until it returns `None` or the closure returns `false` -/
def eqLoop (m other : GroupMap L R) : Nat → Iter R → Res Bool
  | 0, _ => .ok true
  | n + 1, it => do
    match ← it.next m with
    | none => return true
    | some (x, it') => if eqEntry other x then eqLoop m other n it' else return false

/-- `PartialEq::eq` — 1067-1075 -/
def eq (m other : GroupMap L R) : Res Bool :=
  if m.lenLeft != other.lenLeft && m.lenRight != other.lenRight then .ok false
  else eqLoop m other (m.iter.fuel + 1) m.iter

/-- `Extend<(Option<L>, R)>` — 1250-1266 -/
def extendOpt (m : GroupMap L R) : List (Option L × R) → Res (GroupMap L R)
  | [] => .ok m
  | (some l, r) :: rest => do
    let m ← m.insert l r
    extendOpt m rest
  | (none, r) :: rest => do
    let (_, m) ← m.insertRight r
    extendOpt m rest

/-- `Extend<(L, R)>` — 1268-1280 -/
def extend (m : GroupMap L R) : List (L × R) → Res (GroupMap L R)
  | [] => .ok m
  | (l, r) :: rest => do
    let m ← m.insert l r
    extend m rest

/-- `FromIterator<(Option<L>, R)>` — 1282-1292; the default hash builder is a parameter -/
def fromIterOpt (hb : BuildHasher L R) (xs : List (Option L × R)) : Res (GroupMap L R) := (withHasher hb).extendOpt xs

/-- `FromIterator<(L, R)>` — 1294-1304 -/
def fromIter (hb : BuildHasher L R) (xs : List (L × R)) : Res (GroupMap L R) := (withHasher hb).extend xs

end Verif.GroupMap
