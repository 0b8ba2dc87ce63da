import Verif.Unwind
import Verif.GroupMap.Always
import Verif.GroupMap.Panics
/-
The calls of `GroupMap` with panics that unwind (see `Verif.Unwind`): `/repo/src/group_map.rs` once more, now with the
places at which the items' own `Hash` and `Eq` run, and with the map as it is at every point.  (Hashing and comparing
the `(u64, ID)`s of a `HashSet<(u64, ID)>` is not the items' code.)
-/
set_option linter.unusedSectionVars false
set_option linter.unusedSimpArgs false
namespace Verif.GroupMap
open GroupSpec Unw

section
variable [RawImpl] {L R : Type} [BEq L] [BEq R]

/-- `are_paired` — 625-636: two hashes, two probes -/
def arePairedU (left : L) (right : R) : Unw (GroupMap L R) Bool := do
  user
  user
  user
  user
  return (← get).arePaired left right

/-- `remove_left` — 706-718 -/
def removeLeftU (item : L) : Unw (GroupMap L R) (Option L) := do
  user
  user
  let m ← get
  let lHash := m.hb.hl item
  match m.left.removeEntry lHash (equivalentKeyLeft item) with
  | none => return none
  | some (l, left') =>
    set { m with left := left' }
    let pair := (lHash, l.id)
    match m.right.getMut l.hash (rightWithLeftPair pair) with
    | none => fail .unwrapNone
    | some (r, writeR) =>
      set { m with left := left', right := writeR { r with pairs := r.pairs.remove pair } }
      return some l.value

/-- the left items of a right item that is removed — 740-749, 758-767: each is put into a `HashSet<L>`, which hashes
and compares it, or (`hashing = false`) into a `Vec<L>`.  (The `HashSet` has room from the start: the iterator tells
its length.) -/
def removeAllU (hashing : Bool) : List (UInt64 × Nat) → Unw (GroupMap L R) (List L)
  | [] => return []
  | (h, i) :: rest => do
    let m ← get
    match m.left.removeEntry h (leftWithLeftId i) with
    | none => fail .unwrapNone
    | some (l, left') =>
      set { m with left := left' }
      if hashing then
        user
        user
        return l.value :: (← removeAllU hashing rest)
      else return l.value :: (← removeAllU hashing rest)

/-- `remove_right` — 735-751 -/
def removeRightU (item : R) : Unw (GroupMap L R) (Option (List L × R)) := do
  user
  user
  let m ← get
  match m.right.removeEntry (m.hb.hr item) (equivalentKeyRight item) with
  | none => return none
  | some (r, right') =>
    set { m with right := right' }
    let ls ← removeAllU true r.pairs.entries
    return some (collectSet ls, r.value)

/-- `remove` — 687-693 -/
def removeU (left : L) (right : R) : Unw (GroupMap L R) (Option (List L × R)) := do
  if ← arePairedU left right then removeRightU right else return none

/-- `remove_via_hash_and_id` — 754-769 -/
def removeViaHashAndIdU (rHash : UInt64) (id : Nat) : Unw (GroupMap L R) (Option (List L × R)) := do
  let m ← get
  match m.right.removeEntry rHash (rightWithRightId id) with
  | none => return none
  | some (r, right') =>
    set { m with right := right' }
    let ls ← removeAllU false r.pairs.entries
    return some (ls, r.value)

/-- `insert` — 231-303: the counters go up last -/
def insertU (left : L) (right : R) : Unw (GroupMap L R) Unit := do
  user
  user
  user
  user
  let m ← get
  let lHash := m.hb.hl left
  let rHash := m.hb.hr right
  match m.left.getMut lHash (equivalentKeyLeft left), m.right.getMut rHash (equivalentKeyRight right) with
  | none, none =>
    let leftItem : LeftItem L := { value := left, hash := rHash, rid := m.rightCounter, id := m.leftCounter }
    m.left.insertU lHash leftItem (·.hashWith m.hb.hl) (fun t => { m with left := t })
    let m ← get
    let set' := (PairSet.new 1).insert (lHash, m.leftCounter)
    let rightItem : RightItem R := { value := right, pairs := set', id := m.rightCounter }
    m.right.insertU rHash rightItem (·.hashWith m.hb.hr) (fun t => { m with right := t })
    let m ← get
    set { m with leftCounter := m.leftCounter + 1, rightCounter := m.rightCounter + 1 }
  | some (l, writeL), none =>
    let pair := (lHash, l.id)
    match m.right.getMut l.hash (rightWithLeftPair pair) with
    | none => fail .unwrapNone
    | some (r, writeR) =>
      let m := { m with left := writeL { l with hash := rHash, rid := m.rightCounter },
                        right := writeR { r with pairs := r.pairs.remove pair } }
      set m
      let set' := (PairSet.new 1).insert pair
      let rightItem : RightItem R := { value := right, pairs := set', id := m.rightCounter }
      m.right.insertU rHash rightItem (·.hashWith m.hb.hr) (fun t => { m with right := t })
      let m ← get
      set { m with rightCounter := m.rightCounter + 1 }
  | none, some (r, writeR) =>
    let m := { m with right := writeR { r with pairs := r.pairs.insert (lHash, m.leftCounter) } }
    set m
    let leftItem : LeftItem L := { value := left, hash := rHash, rid := r.id, id := m.leftCounter }
    m.left.insertU lHash leftItem (·.hashWith m.hb.hl) (fun t => { m with left := t })
    let m ← get
    set { m with leftCounter := m.leftCounter + 1 }
  | some (l, writeL), some (r, writeR) =>
    let pair := (lHash, l.id)
    let right' := writeR { r with pairs := r.pairs.insert pair }
    set { m with right := right' }
    let newRId := r.id
    match right'.getMut l.hash (rightWithRightId l.rid) with
    | none => fail .unwrapNone
    | some (r', writeR') =>
      set { m with left := writeL { l with hash := rHash, rid := newRId },
                   right := writeR' { r' with pairs := r'.pairs.remove pair } }

/-- `insert_remove` — 341-367: the counters go up before the tables are changed -/
def insertRemoveU (left : L) (right : R) : Unw (GroupMap L R) (Option L × Option (List L × R)) := do
  let optFromLeft ← removeLeftU left
  let optFromRight ← removeRightU right
  user
  user
  let m ← get
  let lHash := m.hb.hl left
  let rHash := m.hb.hr right
  let leftItem : LeftItem L := { value := left, hash := rHash, id := m.leftCounter, rid := m.rightCounter }
  let set' := (PairSet.new 1).insert (lHash, m.leftCounter)
  let rightItem : RightItem R := { value := right, pairs := set', id := m.rightCounter }
  let m := { m with leftCounter := m.leftCounter + 1, rightCounter := m.rightCounter + 1 }
  m.left.insertU lHash leftItem (·.hashWith m.hb.hl) (fun t => { m with left := t })
  let m ← get
  m.right.insertU rHash rightItem (·.hashWith m.hb.hr) (fun t => { m with right := t })
  return (optFromLeft, optFromRight)

/-- `insert_left` — 385-407: the pair is put into the group before `remove_left` runs -/
def insertLeftU (left : L) (right : R) : Unw (GroupMap L R) (Option L) := do
  user
  user
  let m ← get
  let rHash := m.hb.hr right
  match m.right.getMut rHash (equivalentKeyRight right) with
  | none => return none
  | some (r, writeR) =>
    let rightId := r.id
    user
    let lHash := m.hb.hl left
    set { m with right := writeR { r with pairs := r.pairs.insert (lHash, m.leftCounter) } }
    let digest ← removeLeftU left
    let m ← get
    let leftItem : LeftItem L := { value := left, hash := rHash, id := m.leftCounter, rid := rightId }
    let m := { m with leftCounter := m.leftCounter + 1 }
    m.left.insertU lHash leftItem (·.hashWith m.hb.hl) (fun t => { m with left := t })
    return digest

/-- `insert_right` — 434-449 -/
def insertRightU (right : R) : Unw (GroupMap L R) (Option (List L × R)) := do
  let digest ← removeRightU right
  user
  let m ← get
  let rHash := m.hb.hr right
  let rightItem : RightItem R := { value := right, pairs := PairSet.new 0, id := m.rightCounter }
  let m := { m with rightCounter := m.rightCounter + 1 }
  m.right.insertU rHash rightItem (·.hashWith m.hb.hr) (fun t => { m with right := t })
  return digest

/-- the loop `for (hash, id) in set { .. }` of `swap_right` — 489-494, and of `swap_right_remove` — 536-541 -/
def rehashAllU (newHash : UInt64) : List (UInt64 × Nat) → Unw (GroupMap L R) Unit
  | [] => return ()
  | (h, i) :: rest => do
    let m ← get
    match m.left.getMut h (leftWithLeftId i) with
    | none => fail .unwrapNone
    | some (l, writeL) =>
      set { m with left := writeL { l with hash := newHash } }
      rehashAllU newHash rest

/-- `swap_right` — 472-497: the old right item has lost its group before the new one is hashed -/
def swapRightU (old new : R) : Unw (GroupMap L R) Unit := do
  user
  user
  let m ← get
  match m.right.getMut (m.hb.hr old) (equivalentKeyRight old) with
  | none => let _ ← insertRightU new
  | some (r, writeR) =>
    let set' := r.pairs.collect
    let m := { m with right := writeR { r with pairs := r.pairs.clear } }
    set m
    user
    let newHash := m.hb.hr new
    let item : RightItem R := { value := new, pairs := set', id := m.rightCounter }
    m.right.insertU newHash item (·.hashWith m.hb.hr) (fun t => { m with right := t })
    let m ← get
    set { m with rightCounter := m.rightCounter + 1 }
    rehashAllU newHash set'.entries

/-- `swap_right_remove` — 515-545 -/
def swapRightRemoveU (old new : R) : Unw (GroupMap L R) (Option R) := do
  user
  user
  let m ← get
  match m.right.removeEntry (m.hb.hr old) (equivalentKeyRight old) with
  | none =>
    let _ ← insertRightU new
    return none
  | some (r, right') =>
    let m := { m with right := right' }
    set m
    let set' := r.pairs.collect
    user
    let newHash := m.hb.hr new
    let item : RightItem R := { value := new, pairs := set', id := m.rightCounter }
    m.right.insertU newHash item (·.hashWith m.hb.hr) (fun t => { m with right := t })
    let m ← get
    set { m with rightCounter := m.rightCounter + 1 }
    rehashAllU newHash set'.entries
    return some r.value

/-- `pair` — 562-591: the second probe for `right` comes when the left item and its old group have been changed -/
def pairU (left : L) (right : R) : Unw (GroupMap L R) Bool := do
  user
  user
  user
  user
  let m ← get
  let lHash := m.hb.hl left
  let rHash := m.hb.hr right
  match m.left.getMut lHash (equivalentKeyLeft left), m.right.get rHash (equivalentKeyRight right) with
  | some (l, writeL), some r =>
    let left' := writeL { l with hash := rHash, rid := r.id }
    set { m with left := left' }
    match m.right.getMut l.hash (rightWithRightId l.rid) with
    | none => fail .unwrapNone
    | some (oldR, writeOld) =>
      let right' := writeOld { oldR with pairs := oldR.pairs.remove (lHash, l.id) }
      set { m with left := left', right := right' }
      user
      match right'.getMut rHash (equivalentKeyRight right) with
      | none => fail .unwrapNone
      | some (newR, writeNew) =>
        set { m with left := left', right := writeNew { newR with pairs := newR.pairs.insert (lHash, l.id) } }
        return true
  | _, _ => return false

/-- first loop of `retain_paired` — 978-984, with `PairedIter::next` — 1437-1450, and a closure that may panic -/
def retainPairedScanU {σ : Type} (f : σ → L → R → Option Bool × σ) :
    List (LeftItem L) → σ → Unw (GroupMap L R) (List (UInt64 × Nat))
  | [], _ => return []
  | l :: rest, st => do
    let m ← get
    match m.right.get l.hash (rightWithRightId l.rid) with
    | none => fail .unwrapNone
    | some r =>
      match f st l.value r.value with
      | (none, _) => fun _ m => .panic none m
      | (some false, st') => retainPairedScanU f rest st'
      | (some true, st') =>
        user
        user
        match m.getLeftInnerWithHash l.value (m.hb.hl l.value) with
        | none => fail .unwrapNone
        | some item =>
          let d ← retainPairedScanU f rest st'
          return (m.hb.hl l.value, item.id) :: d

/-- `retain_paired` — 972-988; the second loop runs no code of the items -/
def retainPairedU {σ : Type} (f : σ → L → R → Option Bool × σ) (st : σ) : Unw (GroupMap L R) Unit := do
  let m ← get
  let toDrop ← retainPairedScanU f m.iterPaired.todo st
  set { m with left := retainPairedDrop m.left toDrop }

/-- first loop of `retain_unpaired` — 1011-1017, over what `iter_unpaired` yields, with a closure that may panic -/
def retainUnpairedScanU {σ : Type} (f : σ → R → Option Bool × σ) :
    List R → σ → Unw (GroupMap L R) (List (UInt64 × Nat))
  | [], _ => return []
  | r :: rest, st => do
    match f st r with
    | (none, _) => fun _ m => .panic none m
    | (some false, st') => retainUnpairedScanU f rest st'
    | (some true, st') =>
      user
      user
      let m ← get
      match m.getRightInnerWithHash r (m.hb.hr r) with
      | none => fail .unwrapNone
      | some item =>
        let d ← retainUnpairedScanU f rest st'
        return (m.hb.hr r, item.id) :: d

/-- second loop of `retain_unpaired` — 1018-1020 -/
def retainUnpairedDropU : List (UInt64 × Nat) → Unw (GroupMap L R) Unit
  | [] => return ()
  | (h, i) :: rest => do
    let _ ← removeViaHashAndIdU h i
    retainUnpairedDropU rest

/-- `retain_unpaired` — 1005-1021 -/
def retainUnpairedU {σ : Type} (f : σ → R → Option Bool × σ) (st : σ) : Unw (GroupMap L R) Unit := do
  let m ← get
  let toDrop ← retainUnpairedScanU f m.iterUnpairedList st
  retainUnpairedDropU toDrop

/-- `extend` with pairs — 1268-1280; the iterator it is given may panic, too -/
def extendU : List (L × R) → Unw (GroupMap L R) Unit
  | [] => user
  | (l, r) :: rest => do
    user
    insertU l r
    extendU rest

/-- `extend` with pairs and lone right items — 1250-1266 -/
def extendOptU : List (Option L × R) → Unw (GroupMap L R) Unit
  | [] => user
  | (some l, r) :: rest => do
    user
    insertU l r
    extendOptU rest
  | (none, r) :: rest => do
    user
    let _ ← insertRightU r
    extendOptU rest

/-- a call that runs no code of the items and does not change the map -/
def quiet {α : Type} (r : GroupMap L R → Res α) : Unw (GroupMap L R) α := do
  match r (← get) with
  | .error p => fail p
  | .ok a => return a

/-- a closure that does not panic -/
def sure {σ : Type} (f : σ → L → R → Bool × σ) (s : σ) (l : L) (r : R) : Option Bool × σ := (some (f s l r).1, (f s l r).2)

/-- a closure that does not panic -/
def sure1 {σ : Type} (f : σ → R → Bool × σ) (s : σ) (r : R) : Option Bool × σ := (some (f s r).1, (f s r).2)

/-- Running a call, with panics that unwind.  Lookups: a hash, a probe (`are_paired`: two each).  The iterators look
items up by their ids: no code of the items runs.  `clone`: the items' `Clone` may panic, then the caller keeps the
original. -/
def execU : Op L R → Unw (GroupMap L R) (Out L R)
  | .insert l r => do insertU l r; return .unit
  | .insertRemove l r => do let o ← insertRemoveU l r; return .leftAndGroup o.1 o.2
  | .insertLeft l r => do return .left (← insertLeftU l r)
  | .insertRight r => do return .group (← insertRightU r)
  | .swapRight old new => do swapRightU old new; return .unit
  | .swapRightRemove old new => do return .right (← swapRightRemoveU old new)
  | .pair l r => do return .bool (← pairU l r)
  | .remove l r => do return .group (← removeU l r)
  | .removeLeft l => do return .left (← removeLeftU l)
  | .removeRight r => do return .group (← removeRightU r)
  | .getRight l => do user; user; return .right ((← get).getRight l)
  | .getLeftIter r => do user; user; return .leftsOf (← quiet (·.getLeftList r))
  | .containsLeft l => do user; user; return .bool ((← get).containsLeft l)
  | .containsRight r => do user; user; return .bool ((← get).containsRight r)
  | .isRightPaired r => do user; user; return .bool ((← get).isRightPaired r)
  | .arePaired l r => do return .bool (← arePairedU l r)
  | .lenLeft => do return .nat (← get).lenLeft
  | .lenRight => do return .nat (← get).lenRight
  | .isEmpty => do return .bool (← get).isEmpty
  | .clear => do set (← get).clear; return .unit
  | .iter => do return .entries (← quiet (·.iterList))
  | .iterPaired => do return .pairs (← quiet (·.iterPairedList))
  | .iterUnpaired => do return .rights (← get).iterUnpairedList
  | .iterLeft => do return .lefts (← get).iterLeft
  | .iterRight => do return .rights (← get).iterRight
  | .retainPaired _ f s => do retainPairedU (sure f) s; return .unit
  | .retainUnpaired _ f s => do retainUnpairedU (sure1 f) s; return .unit
  | .extend xs => do extendU xs; return .unit
  | .extendOpt xs => do extendOptU xs; return .unit
  | .clone cl cr => do user; set ((← get).clone cl cr); return .unit

/-- A call whose closure may panic, or one of the others. -/
inductive Call (L R : Type) : Type 1 where
  | plain (op : Op L R)
  | retainPaired (σ : Type) (f : σ → L → R → Option Bool × σ) (s : σ)
  | retainUnpaired (σ : Type) (f : σ → R → Option Bool × σ) (s : σ)

/-- Running such a call. -/
def callU : Call L R → Unw (GroupMap L R) (Out L R)
  | .plain op => execU op
  | .retainPaired _ f s => do retainPairedU f s; return .unit
  | .retainUnpaired _ f s => do retainUnpairedU f s; return .unit

/-- A history in which every panic is caught and the map used further; `none` if the process is aborted. -/
def runU (m : GroupMap L R) : List (Fate × Call L R) → Option (GroupMap L R)
  | [] => some m
  | (f, call) :: rest =>
    match callU call f m with
    | .done _ _ m' => runU m' rest
    | .panic _ m' => runU m' rest
    | .abort => none

end
end Verif.GroupMap
