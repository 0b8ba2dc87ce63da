import Verif.Raw
import Verif.Optionals
/-
Model of `/repo/src/partial_cycle_map.rs`, function by function.  Line numbers refer to that file.
`&mut self` methods return the new map; `unwrap()` on `None` is `.error .unwrapNone`,
`unreachable!` is `.error .unreachable`.  References are modelled by the values they point to.
-/
namespace Verif.PartialMap
open OptionalPair

/-- `MappingPair<T>` — 25-29: an item, the hash of its partner (if it has one) and an id, shared by partners -/
structure MappingPair (T : Type) where
  value : T
  hash : Option UInt64
  id : Nat

/-- `equivalent_key` — 31-33 -/
def equivalentKey {T : Type} [BEq T] (k : T) (x : MappingPair T) : Bool := k == x.value

/-- `hash_and_id` — 35-37 -/
def hashAndId {T : Type} (hash : UInt64) (id : Nat) (x : MappingPair T) : Bool :=
  id == x.id && some hash == x.hash

/-- `just_id` — 40-42 -/
def justId {T : Type} (id : Nat) (x : MappingPair T) : Bool := id == x.id

/-- `make_hasher::<MappingPair<T>, S>` — utils.rs 16-22, with `Hash for MappingPair` — 2456-2460: what a table hashes
when it moves its elements -/
def MappingPair.hashWith {T : Type} (h : T → UInt64) (x : MappingPair T) : UInt64 := h x.value

/-- `extract` — 2449-2453 -/
def MappingPair.extract {T : Type} (x : MappingPair T) : T := x.value

/-- `PartialEq for MappingPair` — 2462-2466 (the hash of the partner is not compared) -/
def MappingPair.beq {T : Type} [BEq T] (x y : MappingPair T) : Bool := x.id == y.id && x.value == y.value

/-- `PartialEq<T> for MappingPair<T>` — 2468-2472 -/
def MappingPair.beqItem {T : Type} [BEq T] (x : MappingPair T) (y : T) : Bool := x.value == y

/-- `PartialCycleMap<L, R, St>` — 96-101.  `counter : u64` is a `Nat` here (see C32). -/
structure _root_.Verif.PartialMap (L R : Type) [BEq L] [BEq R] where
  hb : BuildHasher L R
  counter : Nat
  left : RawTable (MappingPair L)
  right : RawTable (MappingPair R)

variable [RawImpl] {L R : Type} [BEq L] [BEq R]

/-- `with_hasher` — 1788-1795 (and `new`, `default`, 112-114, 1724-1726, which use some default builder) -/
def withHasher (hb : BuildHasher L R) : PartialMap L R :=
  { hb := hb, counter := 0, left := RawTable.withCapacity 0, right := RawTable.withCapacity 0 }

/-- `with_capacity_and_hasher` — 1818-1825 (and `with_capacity`, 124-126) -/
def withCapacityAndHasher (n : Nat) (hb : BuildHasher L R) : PartialMap L R :=
  { hb := hb, counter := 0, left := RawTable.withCapacity n, right := RawTable.withCapacity n }

/-- `len_left` — 1870-1872 -/
def lenLeft (m : PartialMap L R) : Nat := m.left.len

/-- `len_right` — 1886-1888 -/
def lenRight (m : PartialMap L R) : Nat := m.right.len

/-- `is_empty` — 1902-1904 -/
def isEmpty (m : PartialMap L R) : Bool := m.lenLeft + m.lenRight == 0

/-- `capacity_left` — 1840-1843 -/
def capacityLeft (m : PartialMap L R) : Nat := m.left.capacity

/-- `capacity_right` — 1853-1856 -/
def capacityRight (m : PartialMap L R) : Nat := m.right.capacity

/-- `hasher` — 1828-1830 -/
def hasher (m : PartialMap L R) : BuildHasher L R := m.hb

/-- `clear` — 1919-1922 -/
def clear (m : PartialMap L R) : PartialMap L R :=
  { m with left := m.left.clear, right := m.right.clear }

/-- `is_left_paired` — 577-584 -/
def isLeftPaired (m : PartialMap L R) (left : L) : Bool :=
  match m.left.get (m.hb.hl left) (equivalentKey left) with
  | some l => l.hash.isSome
  | none => false

/-- `is_right_paired` — 589-596 -/
def isRightPaired (m : PartialMap L R) (right : R) : Bool :=
  match m.right.get (m.hb.hr right) (equivalentKey right) with
  | some r => r.hash.isSome
  | none => false

/-- `are_paired` — 611-622 -/
def arePaired (m : PartialMap L R) (left : L) (right : R) : Bool :=
  let lHash := m.hb.hl left
  let rHash := m.hb.hr right
  match m.left.get lHash (equivalentKey left), m.right.get rHash (equivalentKey right) with
  | some l, some r => l.id == r.id && some lHash == r.hash && some rHash == l.hash
  | _, _ => false

/-- `contains_left` — 637-640 -/
def containsLeft (m : PartialMap L R) (left : L) : Bool :=
  (m.left.get (m.hb.hl left) (equivalentKey left)).isSome

/-- `contains_right` — 655-658 -/
def containsRight (m : PartialMap L R) (right : R) : Bool :=
  (m.right.get (m.hb.hr right) (equivalentKey right)).isSome

/-- `remove_via_left` — 718-737 -/
def removeViaLeft (m : PartialMap L R) (item : L) : Res (OptionalPair L R × PartialMap L R) :=
  let lHash := m.hb.hl item
  match m.left.removeEntry lHash (equivalentKey item) with
  | none => .ok (neither, m)
  | some (lp, left') =>
    match lp.hash with
    | some hash =>
      match m.right.removeEntry hash (hashAndId lHash lp.id) with
      | none => .error .unwrapNone
      | some (rp, right') =>
        .ok (ofPair (some lp.value, some rp.value), { m with left := left', right := right' })
    | none => .ok (ofPair (some lp.value, none), { m with left := left' })

/-- `remove_via_right` — 776-795 -/
def removeViaRight (m : PartialMap L R) (item : R) : Res (OptionalPair L R × PartialMap L R) :=
  let rHash := m.hb.hr item
  match m.right.removeEntry rHash (equivalentKey item) with
  | none => .ok (neither, m)
  | some (rp, right') =>
    match rp.hash with
    | some hash =>
      match m.left.removeEntry hash (hashAndId rHash rp.id) with
      | none => .error .unwrapNone
      | some (lp, left') =>
        .ok (ofPair (some lp.value, some rp.value), { m with left := left', right := right' })
    | none => .ok (ofPair (none, some rp.value), { m with right := right' })

/-- `remove` — 671-678 (`Option::from` is `toOption`; the two `unwrap`s are explicit) -/
def remove (m : PartialMap L R) (left : L) (right : R) : Res (Option (L × R) × PartialMap L R) :=
  if m.arePaired left right then do
    let (o, m) ← m.removeViaLeft left
    match o.toOption with
    | none => return (none, m)
    | some (some l, some r) => return (some (l, r), m)
    | some _ => .error .unwrapNone
  else .ok (none, m)

/-- `remove_left` — 693-700 -/
def removeLeft (m : PartialMap L R) (item : L) : Res (Option L × PartialMap L R) :=
  match m.left.removeEntry (m.hb.hl item) (equivalentKey item) with
  | none => .ok (none, m)
  | some (lp, left') =>
    match lp.hash with
    | some hash =>
      match m.right.getMut hash (justId lp.id) with
      | none => .error .unwrapNone
      | some (rp, write) => .ok (some lp.value, { m with left := left', right := write { rp with hash := none } })
    | none => .ok (some lp.value, { m with left := left' })

/-- `remove_right` — 752-759 -/
def removeRight (m : PartialMap L R) (item : R) : Res (Option R × PartialMap L R) :=
  match m.right.removeEntry (m.hb.hr item) (equivalentKey item) with
  | none => .ok (none, m)
  | some (rp, right') =>
    match rp.hash with
    | some hash =>
      match m.left.getMut hash (justId rp.id) with
      | none => .error .unwrapNone
      | some (lp, write) => .ok (some rp.value, { m with left := write { lp with hash := none }, right := right' })
    | none => .ok (some rp.value, { m with right := right' })

/-- `remove_via_hashes_and_id` — 798-813 -/
def removeViaHashesAndId (m : PartialMap L R) (lHash rHash : UInt64) (id : Nat) :
    OptionalPair L R × PartialMap L R :=
  let (l, left') := match m.left.removeEntry lHash (hashAndId rHash id) with
    | none => (none, m.left)
    | some (lp, t) => (some lp.value, t)
  let (r, right') := match m.right.removeEntry rHash (hashAndId lHash id) with
    | none => (none, m.right)
    | some (rp, t) => (some rp.value, t)
  (ofPair (l, r), { m with left := left', right := right' })

/-- `insert` — 162-190 -/
def insert (m : PartialMap L R) (left : L) (right : R) :
    Res ((OptionalPair L R × OptionalPair L R) × PartialMap L R) := do
  let (optFromLeft, m) ← m.removeViaLeft left
  let (optFromRight, m) ← m.removeViaRight right
  let lHash := m.hb.hl left
  let rHash := m.hb.hr right
  let leftPairing : MappingPair L := { value := left, hash := some rHash, id := m.counter }
  let rightPairing : MappingPair R := { value := right, hash := some lHash, id := m.counter }
  return ((optFromLeft, optFromRight),
    { m with counter := m.counter + 1,
             left := m.left.insert lHash leftPairing (·.hashWith m.hb.hl),
             right := m.right.insert rHash rightPairing (·.hashWith m.hb.hr) })

/-- `insert_left` — 222-238 -/
def insertLeft (m : PartialMap L R) (left : L) : Res (OptionalPair L R × PartialMap L R) := do
  let (optFromLeft, m) ← m.removeViaLeft left
  let leftPairing : MappingPair L := { value := left, hash := none, id := m.counter }
  return (optFromLeft, { m with counter := m.counter + 1, left := m.left.insert (m.hb.hl left) leftPairing (·.hashWith m.hb.hl) })

/-- `insert_right` — 269-285 -/
def insertRight (m : PartialMap L R) (right : R) : Res (OptionalPair L R × PartialMap L R) := do
  let (optFromRight, m) ← m.removeViaRight right
  let rightPairing : MappingPair R := { value := right, hash := none, id := m.counter }
  return (optFromRight, { m with counter := m.counter + 1, right := m.right.insert (m.hb.hr right) rightPairing (·.hashWith m.hb.hr) })

/-- `pair` — 312-329 -/
def pair (m : PartialMap L R) (left : L) (right : R) : Bool × PartialMap L R :=
  let lHash := m.hb.hl left
  let rHash := m.hb.hr right
  match m.left.getMut lHash (equivalentKey left), m.right.getMut rHash (equivalentKey right) with
  | some (l, writeL), some (r, writeR) =>
    match l.hash, r.hash with
    | none, none =>
      (true, { m with left := writeL { l with hash := some rHash },
                      right := writeR { r with hash := some lHash, id := l.id } })
    | _, _ => (false, m)
  | _, _ => (false, m)

/-- `pair_forced` — 360-429 -/
def pairForced (m : PartialMap L R) (left : L) (right : R) : Res (OptionalPair L R × PartialMap L R) :=
  if m.arePaired left right then .ok (neither, m) else
  let lHash := m.hb.hl left
  let rHash := m.hb.hr right
  match m.left.getMut lHash (equivalentKey left), m.right.getMut rHash (equivalentKey right) with
  | some (l, writeL), some (r, writeR) =>
    match l.hash, r.hash with
    | none, none =>
      .ok (neither, { m with left := writeL { l with hash := some rHash },
                             right := writeR { r with hash := some lHash, id := l.id } })
    | some lpHash, none =>
      let left' := writeL { l with hash := some rHash, id := r.id }
      let right' := writeR { r with hash := some lHash }
      match right'.getMut lpHash (hashAndId lHash l.id) with
      | none => .error .unwrapNone
      | some (r1, writeR1) =>
        let right'' := writeR1 { r1 with hash := none }
        match right''.get lpHash (justId l.id) with
        | none => .error .unwrapNone
        | some r2 => .ok (someRight r2.value, { m with left := left', right := right'' })
    | none, some rpHash =>
      let left' := writeL { l with hash := some rHash }
      let right' := writeR { r with hash := some lHash, id := l.id }
      match left'.getMut rpHash (hashAndId rHash r.id) with
      | none => .error .unwrapNone
      | some (l1, writeL1) =>
        let left'' := writeL1 { l1 with hash := none }
        match left''.get rpHash (justId r.id) with
        | none => .error .unwrapNone
        | some l2 => .ok (someLeft l2.value, { m with left := left'', right := right' })
    | some lpHash, some rpHash =>
      let left' := writeL { l with hash := some rHash, id := m.counter }
      let right' := writeR { r with hash := some lHash, id := m.counter }
      match left'.getMut rpHash (hashAndId rHash r.id) with
      | none => .error .unwrapNone
      | some (l1, writeL1) =>
        let left'' := writeL1 { l1 with hash := none }
        match right'.getMut lpHash (hashAndId lHash l.id) with
        | none => .error .unwrapNone
        | some (r1, writeR1) =>
          let right'' := writeR1 { r1 with hash := none }
          match left''.get rpHash (justId r.id), right''.get lpHash (justId l.id) with
          | some l2, some r2 =>
            .ok (someBoth l2.value r2.value,
              { m with counter := m.counter + 1, left := left'', right := right'' })
          | _, _ => .error .unwrapNone
  | _, _ => .ok (neither, m)

/-- `pair_forced_remove` — 461-528 -/
def pairForcedRemove (m : PartialMap L R) (left : L) (right : R) : Res (OptionalPair L R × PartialMap L R) :=
  if m.arePaired left right then .ok (neither, m) else
  let lHash := m.hb.hl left
  let rHash := m.hb.hr right
  match m.left.getMut lHash (equivalentKey left), m.right.getMut rHash (equivalentKey right) with
  | some (l, writeL), some (r, writeR) =>
    match l.hash, r.hash with
    | none, none =>
      .ok (neither, { m with left := writeL { l with hash := some rHash },
                             right := writeR { r with hash := some lHash, id := l.id } })
    | some lpHash, none =>
      let left' := writeL { l with hash := some rHash, id := r.id }
      let right' := writeR { r with hash := some lHash }
      match right'.removeEntry lpHash (justId l.id) with
      | none => .error .unwrapNone
      | some (r1, right'') => .ok (someRight r1.value, { m with left := left', right := right'' })
    | none, some rpHash =>
      let left' := writeL { l with hash := some rHash }
      let right' := writeR { r with hash := some lHash, id := l.id }
      match left'.removeEntry rpHash (hashAndId rHash r.id) with
      | none => .error .unwrapNone
      | some (l1, left'') => .ok (someLeft l1.value, { m with left := left'', right := right' })
    | some lpHash, some rpHash =>
      let left' := writeL { l with hash := some rHash, id := m.counter }
      let right' := writeR { r with hash := some lHash, id := m.counter }
      match left'.removeEntry rpHash (justId r.id) with
      | none => .error .unwrapNone
      | some (l1, left'') =>
        match right'.removeEntry lpHash (justId l.id) with
        | none => .error .unwrapNone
        | some (r1, right'') =>
          .ok (someBoth l1.value r1.value,
            { m with counter := m.counter + 1, left := left'', right := right'' })
  | _, _ => .ok (neither, m)

/-- `unpair` — 550-572: only the hashes are compared, not the ids -/
def unpair (m : PartialMap L R) (left : L) (right : R) : Bool × PartialMap L R :=
  let lHash := m.hb.hl left
  let rHash := m.hb.hr right
  match m.left.getMut lHash (equivalentKey left), m.right.getMut rHash (equivalentKey right) with
  | some (l, writeL), some (r, writeR) =>
    match l.hash, r.hash with
    | some lH, some rH =>
      if lHash == rH && rHash == lH then
        (true, { m with counter := m.counter + 1,
                        left := writeL { l with hash := none },
                        right := writeR { r with hash := none, id := m.counter } })
      else (false, m)
    | _, _ => (false, m)
  | _, _ => (false, m)

/-- `swap_left_eq_check` — 962-971 -/
def swapLeftEqCheck (m : PartialMap L R) (old new : L) (newHash : UInt64) :
    Res (OptionalPair L R × PartialMap L R) :=
  if (m.left.get newHash (equivalentKey new)).isSome && new != old then m.removeViaLeft new
  else .ok (neither, m)

/-- `swap_left` — 842-887 -/
def swapLeft (m : PartialMap L R) (old new : L) : Res (OptionalPair L (OptionalPair L R) × PartialMap L R) := do
  let newLHash := m.hb.hl new
  let (eqOpt, m) ← m.swapLeftEqCheck old new newLHash
  let oldLHash := m.hb.hl old
  match m.left.get oldLHash (equivalentKey old) with
  | none => return (neither, m)
  | some lp =>
    let right' ← match lp.hash with
      | some hash =>
        match m.right.getMut hash (hashAndId oldLHash lp.id) with
        | none => .error .unwrapNone
        | some (rp, writeRight) => pure (writeRight { rp with hash := some newLHash })
      | none => pure m.right
    let newLeftPairing : MappingPair L := { value := new, hash := lp.hash, id := lp.id }
    match m.left.removeEntry oldLHash (equivalentKey old) with
    | none => .error .unwrapNone
    | some (oldLp, left') =>
      let m := { m with left := left'.insert newLHash newLeftPairing (·.hashWith m.hb.hl), right := right' }
      if eqOpt.isNone then return (someLeft oldLp.value, m) else return (someBoth oldLp.value eqOpt, m)

/-- `swap_left_checked` — 909-920 -/
def swapLeftChecked (m : PartialMap L R) (old : L) (expected : R) (new : L) :
    Res (OptionalPair L (OptionalPair L R) × PartialMap L R) :=
  if !m.arePaired old expected then .ok (neither, m) else m.swapLeft old new

/-- `swap_left_or_insert` — 940-959 -/
def swapLeftOrInsert (m : PartialMap L R) (old new : L) (toInsert : R) :
    Res (OptionalPair L (OptionalPair L R) × PartialMap L R) :=
  if (m.left.get (m.hb.hl old) (equivalentKey old)).isSome then m.swapLeft old new
  else do
    match ← m.insert new toInsert with
    | ((neither, neither), m) => return (neither, m)
    | ((neither, pair), m) => return (someRight pair, m)
    | _ => .error .unreachable

/-- `swap_right_eq_check` — 1122-1131 -/
def swapRightEqCheck (m : PartialMap L R) (old new : R) (newHash : UInt64) :
    Res (OptionalPair L R × PartialMap L R) :=
  if (m.right.get newHash (equivalentKey new)).isSome && new != old then m.removeViaRight new
  else .ok (neither, m)

/-- `swap_right` — 997-1042 -/
def swapRight (m : PartialMap L R) (old new : R) : Res (OptionalPair R (OptionalPair L R) × PartialMap L R) := do
  let newRHash := m.hb.hr new
  let (eqOpt, m) ← m.swapRightEqCheck old new newRHash
  let oldRHash := m.hb.hr old
  match m.right.get oldRHash (equivalentKey old) with
  | none => return (neither, m)
  | some rp =>
    let left' ← match rp.hash with
      | some hash =>
        match m.left.getMut hash (hashAndId oldRHash rp.id) with
        | none => .error .unwrapNone
        | some (lp, writeLeft) => pure (writeLeft { lp with hash := some newRHash })
      | none => pure m.left
    let newRightPairing : MappingPair R := { value := new, hash := rp.hash, id := rp.id }
    match m.right.removeEntry oldRHash (equivalentKey old) with
    | none => .error .unwrapNone
    | some (oldRp, right') =>
      let m := { m with left := left', right := right'.insert newRHash newRightPairing (·.hashWith m.hb.hr) }
      if eqOpt.isNone then return (someLeft oldRp.value, m) else return (someBoth oldRp.value eqOpt, m)

/-- `swap_right_checked` — 1064-1075 -/
def swapRightChecked (m : PartialMap L R) (old : R) (expected : L) (new : R) :
    Res (OptionalPair R (OptionalPair L R) × PartialMap L R) :=
  if !m.arePaired expected old then .ok (neither, m) else m.swapRight old new

/-- `swap_right_or_insert` — 1095-1119 -/
def swapRightOrInsert (m : PartialMap L R) (old new : R) (toInsert : L) :
    Res (OptionalPair R (OptionalPair L R) × PartialMap L R) :=
  if (m.right.get (m.hb.hr old) (equivalentKey old)).isSome then m.swapRight old new
  else do
    match ← m.insert toInsert new with
    | ((neither, neither), m) => return (neither, m)
    | ((pair, neither), m) => return (someRight pair, m)
    | _ => .error .unreachable

/-- `get_left` — 1145-1160 (with `get_right_inner_with_hash` — 1219-1226), for a borrowed key given by its hash and its comparison with stored items -/
def getLeftBy (m : PartialMap L R) (rHash : UInt64) (eq : R → Bool) : Option L :=
  match m.right.get rHash (fun x => eq x.value) with
  | none => none
  | some rp =>
    match rp.hash with
    | none => none
    | some hash =>
      match m.left.get hash (hashAndId rHash rp.id) with
      | none => none
      | some lp => some lp.value

/-- `get_left` with `Q = R` -/
def getLeft (m : PartialMap L R) (item : R) : Option L := m.getLeftBy (m.hb.hr item) (fun x => item == x)

/-- `get_right` — 1174-1189 (with `get_left_inner_with_hash` — 1204-1211), for a borrowed key given by its hash and its comparison with stored items -/
def getRightBy (m : PartialMap L R) (lHash : UInt64) (eq : L → Bool) : Option R :=
  match m.left.get lHash (fun x => eq x.value) with
  | none => none
  | some lp =>
    match lp.hash with
    | none => none
    | some hash =>
      match m.right.get hash (hashAndId lHash lp.id) with
      | none => none
      | some rp => some rp.value

/-- `get_right` with `Q = L` -/
def getRight (m : PartialMap L R) (item : L) : Option R := m.getRightBy (m.hb.hl item) (fun x => item == x)

/-- `get_via_hashes_and_id` — 1192-1196 -/
def getViaHashesAndId (m : PartialMap L R) (lHash rHash : UInt64) (id : Nat) : Res (Option (L × R)) :=
  match m.left.get lHash (hashAndId rHash id) with
  | none => .ok none
  | some lp =>
    match m.right.get rHash (hashAndId lHash id) with
    | none => .error .unwrapNone
    | some rp => .ok (some (lp.value, rp.value))

/-- `get_left_inner` — 1199-1202 -/
def getLeftInner (m : PartialMap L R) (item : L) : Option (MappingPair L) :=
  m.left.get (m.hb.hl item) (equivalentKey item)

/-- `get_right_inner` — 1214-1217 -/
def getRightInner (m : PartialMap L R) (item : R) : Option (MappingPair R) :=
  m.right.get (m.hb.hr item) (equivalentKey item)

/-! ### Iterators -/

/-- `Iter` — 1989-1992 (and `SingleIter` over the left set): the entries of the left table still to be visited -/
structure Iter (L : Type) where
  todo : List (MappingPair L)

/-- `iter` — 1248-1253 -/
def iter (m : PartialMap L R) : Iter L := ⟨m.left.toList⟩

/-- `Iter::next` — 2022-2031: only the left table is visited -/
def Iter.next (it : Iter L) (m : PartialMap L R) : Option (OptionalPair L R × Iter L) :=
  match it.todo with
  | [] => none
  | l :: rest => some (ofPair (some l.value, m.getRight l.value), ⟨rest⟩)

/-- `Iter::size_hint` — 2033-2035: `(n, Some(n))` for the number `n` of left entries still to be visited -/
def Iter.sizeHint (it : Iter L) : Nat := it.todo.length

/-- what the iterator still yields, in order: `next` until `None` -/
def Iter.collect (m : PartialMap L R) (todo : List (MappingPair L)) : List (OptionalPair L R) :=
  match todo with
  | [] => []
  | l :: rest =>
    match Iter.next ⟨l :: rest⟩ m with
    | none => []
    | some (o, _) => o :: Iter.collect m rest

/-- calling `next` until it returns `None`, at most `n` times -/
def Iter.take (m : PartialMap L R) : Nat → Iter L → List (OptionalPair L R) × Iter L
  | 0, it => ([], it)
  | n + 1, it =>
    match it.next m with
    | none => ([], it)
    | some (o, it') => (o :: (Iter.take m n it').1, (Iter.take m n it').2)

/-- `Iter::len` — 2044-2046: `self.clone().count()` -/
def Iter.len (it : Iter L) (m : PartialMap L R) : Nat := (Iter.collect m it.todo).length

/-- all entries yielded by `iter()` -/
def iterList (m : PartialMap L R) : List (OptionalPair L R) := Iter.collect m m.iter.todo

/-- `PairedIter` — 2058-2062; its `right_iter` is never used by `next` -/
structure PairedIter (L R : Type) where
  todo : List (MappingPair L)

/-- `iter_paired` — 1267-1273 -/
def iterPaired (m : PartialMap L R) : PairedIter L R := ⟨m.left.toList⟩

/-- `PairedIter::next` — 2093-2108: skips unpaired left entries; the result and the entries left -/
def PairedIter.next (m : PartialMap L R) : List (MappingPair L) → Res (Option (L × R) × List (MappingPair L))
  | [] => .ok (none, [])
  | l :: rest =>
    match l.hash with
    | none => PairedIter.next m rest
    | some hash => do
      let o ← m.getViaHashesAndId (m.hb.hl l.value) hash l.id
      return (o, rest)

/-- calling `next` until it returns `None`, at most `n` times -/
def PairedIter.take (m : PartialMap L R) : Nat → PairedIter L R → Res (List (L × R) × PairedIter L R)
  | 0, it => .ok ([], it)
  | n + 1, it => do
    match ← PairedIter.next m it.todo with
    | (none, rest) => return ([], ⟨rest⟩)
    | (some p, rest) =>
      let (ps, it') ← PairedIter.take m n ⟨rest⟩
      return (p :: ps, it')

/-- `PairedIter::size_hint` — 2110-2112: `(n, Some(n))` -/
def PairedIter.sizeHint (it : PairedIter L R) : Nat := it.todo.length

/-- `PairedIter::len` — 2121-2123: `self.clone().count()`; every `Some` consumes an entry -/
def PairedIter.len (it : PairedIter L R) (m : PartialMap L R) : Res Nat := do
  let (ps, _) ← PairedIter.take m (it.todo.length + 1) it
  return ps.length

/-- all pairs yielded by `iter_paired()` -/
def iterPairedList (m : PartialMap L R) : Res (List (L × R)) := do
  let (ps, _) ← PairedIter.take m (m.left.len + 1) m.iterPaired
  return ps

/-- `UnpairedIter` — 2135-2139 -/
structure UnpairedIter (L R : Type) where
  todoL : List (MappingPair L)
  todoR : List (MappingPair R)

/-- `iter_unpaired` — 1294-1300 -/
def iterUnpaired (m : PartialMap L R) : UnpairedIter L R := ⟨m.left.toList, m.right.toList⟩

/-- second loop of `UnpairedIter::next` — 2179-2187 -/
def UnpairedIter.nextR : List (MappingPair R) → Option (OptionalPair L R × UnpairedIter L R)
  | [] => none
  | r :: rest => if r.hash.isSome then nextR rest else some (someRight r.value, ⟨[], rest⟩)

/-- `UnpairedIter::next` — 2170-2188 -/
def UnpairedIter.next (todoR : List (MappingPair R)) :
    List (MappingPair L) → Option (OptionalPair L R × UnpairedIter L R)
  | [] => UnpairedIter.nextR todoR
  | l :: rest => if l.hash.isSome then next todoR rest else some (someLeft l.value, ⟨rest, todoR⟩)

/-- calling `next` until it returns `None`, at most `n` times -/
def UnpairedIter.take : Nat → UnpairedIter L R → List (OptionalPair L R) × UnpairedIter L R
  | 0, it => ([], it)
  | n + 1, it =>
    match UnpairedIter.next it.todoR it.todoL with
    | none => ([], ⟨[], []⟩)
    | some (o, it') => (o :: (UnpairedIter.take n it').1, (UnpairedIter.take n it').2)

/-- `UnpairedIter::size_hint` — 2190-2192: `(n, Some(n))` for the number `n` of *left* entries left -/
def UnpairedIter.sizeHint (it : UnpairedIter L R) : Nat := it.todoL.length

/-- `UnpairedIter::len` — 2201-2203: `self.clone().count()` -/
def UnpairedIter.len (it : UnpairedIter L R) : Nat :=
  (UnpairedIter.take (it.todoL.length + it.todoR.length + 1) it).1.length

/-- all items yielded by `iter_unpaired()` -/
def iterUnpairedList (m : PartialMap L R) : List (OptionalPair L R) :=
  (UnpairedIter.take (m.left.len + m.right.len + 1) m.iterUnpaired).1

/-- `SingleIter` (2215-2267): `next` yields the value of the next entry, `len` and `size_hint` count the
entries left; `iter_left` — 1314-1319 -/
def iterLeft (m : PartialMap L R) : List L := m.left.toList.map (·.value)

/-- `iter_right` — 1333-1338 -/
def iterRight (m : PartialMap L R) : List R := m.right.toList.map (·.value)

/-- `DrainIter` — 2270-2277 -/
structure DrainIter (L R : Type) where
  todo : List (MappingPair L)
  right : RawTable (MappingPair R)

/-- `drain` — 1366-1371 -/
def drain (m : PartialMap L R) : DrainIter L R := { todo := m.left.toList, right := m.right }

/-- `DrainIter::next` — 2309-2329.  When the left entries are used up it takes the first element of a
*new* `right_ref.drain()`, and dropping that `RawDrain` empties the right table. -/
def DrainIter.next (it : DrainIter L R) : Res (Option (OptionalPair L R) × DrainIter L R) :=
  match it.todo with
  | l :: rest =>
    match l.hash with
    | some hash =>
      match it.right.removeEntry hash (justId l.id) with
      | none => .error .unwrapNone
      | some (r, right') => .ok (some (someBoth l.value r.value), { todo := rest, right := right' })
    | none => .ok (some (someLeft l.value), { todo := rest, right := it.right })
  | [] => .ok (it.right.toList.head?.map fun r => someRight r.value, { todo := [], right := it.right.clear })

/-- `DrainIter::len` — 2341-2343, and `size_hint` — 2331-2333 -/
def DrainIter.len (it : DrainIter L R) : Nat := it.todo.length

/-- calling `next` until it returns `None`, at most `n` times -/
def DrainIter.take : Nat → DrainIter L R → Res (List (OptionalPair L R) × DrainIter L R)
  | 0, it => .ok ([], it)
  | n + 1, it => do
    match ← it.next with
    | (none, it') => return ([], it')
    | (some p, it') =>
      let (ps, it'') ← DrainIter.take n it'
      return (p :: ps, it'')

/-- `drain()`, at most `n` calls of `next`, then `Drop` (2279-2292), which calls `next` until it returns
`None` (at most one more item than there are left entries), and the drop of `left_iter`, which empties the left table. -/
def drainTake (m : PartialMap L R) (n : Nat) : Res (List (OptionalPair L R) × PartialMap L R) := do
  let (ps, it) ← DrainIter.take n m.drain
  let (_, it) ← DrainIter.take (it.todo.length + 2) it
  return (ps, { m with left := m.left.clear, right := it.right })

/-- `DrainFilterIter` / `DrainFilterInner` — 2355-2363, 2402-2408.  During the first phase (`reset` is
`reset_right_iter`) the left table is `keptL ++ todoL` and the right table is `right`; during the second
phase the right table is `keptR ++ todoR`. -/
structure DrainFilter (σ L R : Type) where
  keptL : List (UInt64 × MappingPair L)
  todoL : List (UInt64 × MappingPair L)
  right : RawTable (MappingPair R)
  reset : Bool
  keptR : List (UInt64 × MappingPair R)
  todoR : List (UInt64 × MappingPair R)
  st : σ

/-- first loop of `DrainFilterInner::next` — 2415-2434; `none` when the left entries are used up -/
def DrainFilter.nextL {σ : Type} (f : σ → OptionalPair L R → Bool × σ)
    (kept todo : List (UInt64 × MappingPair L)) (right : RawTable (MappingPair R)) (st : σ) :
    Res (Option (OptionalPair L R) × List (UInt64 × MappingPair L) × List (UInt64 × MappingPair L) ×
      RawTable (MappingPair R) × σ) :=
  match todo with
  | [] => .ok (none, kept, [], right, st)
  | e :: rest =>
    match e.2.hash with
    | some hash =>
      match right.removeEntry hash (justId e.2.id) with
      | none => .error .unwrapNone
      | some (r, right') =>
        match f st (someBoth e.2.value r.value) with
        | (true, st') => .ok (some (someBoth e.2.value r.value), kept, rest, right', st')
        | (false, st') => DrainFilter.nextL f (kept ++ [e]) rest right st'
    | none =>
      match f st (someLeft e.2.value) with
      | (true, st') => .ok (some (someLeft e.2.value), kept, rest, right, st')
      | (false, st') => DrainFilter.nextL f (kept ++ [e]) rest right st'

/-- second loop of `DrainFilterInner::next` — 2439-2445: paired right entries are not skipped -/
def DrainFilter.nextR {σ : Type} (f : σ → OptionalPair L R → Bool × σ)
    (kept todo : List (UInt64 × MappingPair R)) (st : σ) :
    Option (OptionalPair L R) × List (UInt64 × MappingPair R) × List (UInt64 × MappingPair R) × σ :=
  match todo with
  | [] => (none, kept, [], st)
  | e :: rest =>
    match f st (someRight e.2.value) with
    | (true, st') => (some (someRight e.2.value), kept, rest, st')
    | (false, st') => DrainFilter.nextR f (kept ++ [e]) rest st'

/-- `DrainFilterInner::next` — 2411-2447 -/
def DrainFilter.next {σ : Type} (f : σ → OptionalPair L R → Bool × σ) (it : DrainFilter σ L R) :
    Res (Option (OptionalPair L R) × DrainFilter σ L R) := do
  match ← DrainFilter.nextL f it.keptL it.todoL it.right it.st with
  | (some o, keptL, todoL, right, st) =>
    return (some o, { it with keptL := keptL, todoL := todoL, right := right, st := st })
  | (none, keptL, _, right, st) =>
    let (keptR, todoR) := if it.reset then ([], right.entries) else (it.keptR, it.todoR)
    let (o, keptR, todoR, st) := DrainFilter.nextR f keptR todoR st
    return (o, { keptL := keptL, todoL := [], right := right, reset := false, keptR := keptR, todoR := todoR, st := st })

/-- `DrainFilterIter::size_hint` — 2391-2393: `(0, Some(n))` for the number `n` of left entries to come -/
def DrainFilter.sizeHint {σ : Type} (it : DrainFilter σ L R) : Nat := it.todoL.length

/-- calling `next` until it returns `None`, at most `n` times -/
def DrainFilter.take {σ : Type} (f : σ → OptionalPair L R → Bool × σ) :
    Nat → DrainFilter σ L R → Res (List (OptionalPair L R) × DrainFilter σ L R)
  | 0, it => .ok ([], it)
  | n + 1, it => do
    match ← DrainFilter.next f it with
    | (none, it') => return ([], it')
    | (some p, it') =>
      let (ps, it'') ← DrainFilter.take f n it'
      return (p :: ps, it'')

/-- which elements of a table are among the entries `es` that an iterator leaves: they are recognised by their ids -/
def stays {T : Type} (t : RawTable (MappingPair T)) (es : List (UInt64 × MappingPair T)) : List Bool :=
  t.entries.map fun e => es.any (·.2.id == e.2.id)

/-- `drain_filter(f)` (1401-1418), at most `n` calls of `next` (2386-2388), then `Drop` (2365-2378), which calls
`next` until it returns `None` (dropping the items does not panic, so `ConsumeAllOnDrop`, 2294-2300, has nothing to do); every `Some` consumes an entry of one of the tables.
Returns the yielded entries, the final closure state and the map. -/
def drainFilterTake {σ : Type} (m : PartialMap L R) (f : σ → OptionalPair L R → Bool × σ) (st : σ) (n : Nat) :
    Res (List (OptionalPair L R) × σ × PartialMap L R) := do
  let (ps, it) ← DrainFilter.take f n
    { keptL := [], todoL := m.left.entries, right := m.right, reset := true, keptR := [], todoR := [], st := st }
  let (_, it) ← DrainFilter.take f (it.todoL.length + it.right.len + it.todoR.length + 1) it
  return (ps, it.st, { m with
    left := RawImpl.touch (.erase (stays m.left (it.keptL ++ it.todoL))) { m.left with entries := it.keptL ++ it.todoL },
    right := RawImpl.touch (.erase (stays it.right (it.keptR ++ it.todoR))) { it.right with entries := it.keptR ++ it.todoR } })

/-- first loop of `retain` — 1440-1452: the keys of the entries for which the closure returns `true` -/
def retainScan {σ : Type} (m : PartialMap L R) (f : σ → OptionalPair L R → Bool × σ) :
    List (MappingPair L) → σ → Res (List (Option UInt64 × Option UInt64 × Nat) × σ)
  | [], st => .ok ([], st)
  | l :: rest, st =>
    match Iter.next ⟨l :: rest⟩ m with
    | none => .ok ([], st)
    | some (op, _) =>
      match f st op with
      | (true, st') => do
        let (left, right) := op.toPair
        let lHash := left.map m.hb.hl
        let rHash := right.map m.hb.hr
        let id ← match left with
          | some l =>
            match m.getLeftInner l with
            | none => .error .unwrapNone
            | some p => pure p.id
          | none =>
            match right with
            | none => .error .unwrapNone
            | some r =>
              match m.getRightInner r with
              | none => .error .unwrapNone
              | some p => pure p.id
        let (d, st'') ← retainScan m f rest st'
        return ((lHash, rHash, id) :: d, st'')
      | (false, st') => retainScan m f rest st'

/-- second loop of `retain` — 1453-1468 -/
def retainDrop (m : PartialMap L R) : List (Option UInt64 × Option UInt64 × Nat) → Res (PartialMap L R)
  | [] => .ok m
  | (some l, some r, id) :: rest => retainDrop (m.removeViaHashesAndId l r id).2 rest
  | (some l, none, id) :: rest =>
    retainDrop (match m.left.removeEntry l (justId id) with | none => m | some (_, t) => { m with left := t }) rest
  | (none, some r, id) :: rest =>
    retainDrop (match m.right.removeEntry r (justId id) with | none => m | some (_, t) => { m with right := t }) rest
  | (none, none, _) :: _ => .error .unreachable

/-- `retain` — 1434-1469; also returns the final closure state -/
def retain {σ : Type} (m : PartialMap L R) (f : σ → OptionalPair L R → Bool × σ) (st : σ) :
    Res (σ × PartialMap L R) := do
  let (toDrop, st) ← retainScan m f m.iter.todo st
  let m ← retainDrop m toDrop
  return (st, m)

/-- first loop of `retain_paired` — 1491-1498, over what `iter_paired` yields -/
def retainPairedScan {σ : Type} (m : PartialMap L R) (f : σ → L → R → Bool × σ) :
    List (L × R) → σ → Res (List (UInt64 × UInt64 × Nat) × σ)
  | [], st => .ok ([], st)
  | (left, right) :: rest, st =>
    match f st left right with
    | (true, st') =>
      match m.getLeftInner left with
      | none => .error .unwrapNone
      | some p => do
        let (d, st'') ← retainPairedScan m f rest st'
        return ((m.hb.hl left, m.hb.hr right, p.id) :: d, st'')
    | (false, st') => retainPairedScan m f rest st'

/-- second loop of `retain_paired` — 1499-1501 -/
def retainPairedDrop (m : PartialMap L R) (keys : List (UInt64 × UInt64 × Nat)) : PartialMap L R :=
  keys.foldl (fun m k => (m.removeViaHashesAndId k.1 k.2.1 k.2.2).2) m

/-- `retain_paired` — 1486-1502 -/
def retainPaired {σ : Type} (m : PartialMap L R) (f : σ → L → R → Bool × σ) (st : σ) :
    Res (σ × PartialMap L R) := do
  let ps ← m.iterPairedList
  let (toDrop, st) ← retainPairedScan m f ps st
  return (st, retainPairedDrop m toDrop)

/-- first loop of `retain_unpaired` — 1525-1542, over what `iter_unpaired` yields -/
def retainUnpairedScan {σ : Type} (m : PartialMap L R) (f : σ → OptionalPair L R → Bool × σ) :
    List (OptionalPair L R) → σ → Res (List (Option UInt64 × Option UInt64 × Nat) × σ)
  | [], st => .ok ([], st)
  | op :: rest, st =>
    match f st op with
    | (true, st') =>
      match op with
      | someLeft left =>
        match m.left.get (m.hb.hl left) (equivalentKey left) with
        | none => .error .unwrapNone
        | some p => do
          let (d, st'') ← retainUnpairedScan m f rest st'
          return ((some (m.hb.hl left), none, p.id) :: d, st'')
      | someRight right =>
        match m.right.get (m.hb.hr right) (equivalentKey right) with
        | none => .error .unwrapNone
        | some p => do
          let (d, st'') ← retainUnpairedScan m f rest st'
          return ((none, some (m.hb.hr right), p.id) :: d, st'')
      | _ => .error .unreachable
    | (false, st') => retainUnpairedScan m f rest st'

/-- second loop of `retain_unpaired` — 1543-1556 -/
def retainUnpairedDrop (m : PartialMap L R) : List (Option UInt64 × Option UInt64 × Nat) → Res (PartialMap L R)
  | [] => .ok m
  | (some l, none, id) :: rest =>
    retainUnpairedDrop (match m.left.removeEntry l (justId id) with | none => m | some (_, t) => { m with left := t }) rest
  | (none, some r, id) :: rest =>
    retainUnpairedDrop (match m.right.removeEntry r (justId id) with | none => m | some (_, t) => { m with right := t }) rest
  | _ => .error .unreachable

/-- `retain_unpaired` — 1519-1557 -/
def retainUnpaired {σ : Type} (m : PartialMap L R) (f : σ → OptionalPair L R → Bool × σ) (st : σ) :
    Res (σ × PartialMap L R) := do
  let (toDrop, st) ← retainUnpairedScan m f m.iterUnpairedList st
  let m ← retainUnpairedDrop m toDrop
  return (st, m)

/-! ### Capacity -/

/-- `shrink_to_left` — 1580-1583 -/
def shrinkToLeft (m : PartialMap L R) (n : Nat) : PartialMap L R := { m with left := m.left.shrinkTo n (·.hashWith m.hb.hl) }

/-- `shrink_to_right` — 1606-1609 -/
def shrinkToRight (m : PartialMap L R) (n : Nat) : PartialMap L R := { m with right := m.right.shrinkTo n (·.hashWith m.hb.hr) }

/-- `shrink_to_fit` — 1626-1631 -/
def shrinkToFit (m : PartialMap L R) : PartialMap L R :=
  { m with left := m.left.shrinkTo m.lenLeft (·.hashWith m.hb.hl), right := m.right.shrinkTo m.lenRight (·.hashWith m.hb.hr) }

/-- `reserve_left` — 1645-1648 -/
def reserveLeft (m : PartialMap L R) (n : Nat) : PartialMap L R := { m with left := m.left.reserve n (·.hashWith m.hb.hl) }

/-- `reserve_right` — 1662-1665 -/
def reserveRight (m : PartialMap L R) (n : Nat) : PartialMap L R := { m with right := m.right.reserve n (·.hashWith m.hb.hr) }

/-- `try_reserve_left` — 1679-1683; whether the allocation succeeds is an input -/
def tryReserveLeft (m : PartialMap L R) (n : Nat) (ok : Bool) : Bool × PartialMap L R :=
  if ok then (true, { m with left := m.left.reserve n (·.hashWith m.hb.hl) }) else (false, m)

/-- `try_reserve_right` — 1697-1701 -/
def tryReserveRight (m : PartialMap L R) (n : Nat) (ok : Bool) : Bool × PartialMap L R :=
  if ok then (true, { m with right := m.right.reserve n (·.hashWith m.hb.hr) }) else (false, m)

/-! ### Traits -/

/-- `Clone for MappingPair` — 2476-2484; the `Clone` of the item is a parameter -/
def MappingPair.clone {T : Type} (c : T → T) (x : MappingPair T) : MappingPair T :=
  { value := c x.value, hash := x.hash, id := x.id }

/-- `Clone` — 1704-1718; the `Clone` implementations of the items are parameters -/
def clone (cl : L → L) (cr : R → R) (m : PartialMap L R) : PartialMap L R :=
  { left := m.left.clone (MappingPair.clone cl), right := m.right.clone (MappingPair.clone cr),
    counter := m.counter, hb := m.hb }

/-- the closure of `eq` — 1750-1757 -/
def eqEntry (other : PartialMap L R) : OptionalPair L R → Res Bool
  | someLeft l => .ok (other.getRight l).isNone
  | someRight r => .ok (other.getLeft r).isNone
  | someBoth l r => .ok (other.arePaired l r)
  | neither => .error .unreachable

/-- `iter().all(..)`, short-circuiting -/
def eqAll (other : PartialMap L R) : List (OptionalPair L R) → Res Bool
  | [] => .ok true
  | op :: rest => do
    if ← eqEntry other op then eqAll other rest else return false

/-- `PartialEq::eq` — 1746-1758 -/
def eq (m other : PartialMap L R) : Res Bool :=
  if m.lenLeft != other.lenLeft && m.lenRight != other.lenRight then .ok false else eqAll other m.iterList

/-- `Extend<(L, R)>` — 1925-1937 -/
def extendPairs (m : PartialMap L R) : List (L × R) → Res (PartialMap L R)
  | [] => .ok m
  | (l, r) :: rest => do
    let (_, m) ← m.insert l r
    extendPairs m rest

/-- `Extend<OptionalPair<L, R>>` — 1939-1962 -/
def extend (m : PartialMap L R) : List (OptionalPair L R) → Res (PartialMap L R)
  | [] => .ok m
  | neither :: rest => extend m rest
  | someLeft l :: rest => do
    let (_, m) ← m.insertLeft l
    extend m rest
  | someRight r :: rest => do
    let (_, m) ← m.insertRight r
    extend m rest
  | someBoth l r :: rest => do
    let (_, m) ← m.insert l r
    extend m rest

/-- `FromIterator<(L, R)>` — 1964-1974; the default hash builder is a parameter -/
def fromPairs (hb : BuildHasher L R) (xs : List (L × R)) : Res (PartialMap L R) := (withHasher hb).extendPairs xs

/-- `FromIterator<OptionalPair<L, R>>` — 1976-1986 -/
def fromIter (hb : BuildHasher L R) (xs : List (OptionalPair L R)) : Res (PartialMap L R) := (withHasher hb).extend xs

end Verif.PartialMap
