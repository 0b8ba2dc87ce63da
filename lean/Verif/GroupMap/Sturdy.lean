import Verif.GroupMap.UnwindValid
import Verif.GroupMap.RepairMachine
/-
A repair of `GroupMap` (not in /repo): the calls of `Verif.GroupMap.Unwind`, that is `/repo/src/group_map.rs` with panics that
unwind, with the repairs of `Verif.GroupMap.Repair` (so that they do what is documented), and changed in these ways.

* Every item stores its own hash, and the closure handed to the tables for moving their elements reads it instead of running
  `Hash`.  A table that grows then runs no code of the items.  (The stored hash is the one `Hash` would give, C85.)
* `remove_right` takes all left items of the right item out before it puts them into the `HashSet` it returns.
* `insert_left` looks the left item up before it changes the group, and takes it out later by the bucket it has found.
* `swap_right` and `swap_right_remove` hash the new item before they change anything.
* `pair` looks the right item up once, before it changes anything, and uses the bucket it has found.

Everything else is as it is.
-/
set_option linter.unusedSectionVars false
set_option linter.unusedSimpArgs false
namespace Verif.GroupMap.Sturdy
open GroupSpec Unw

section
variable [RawImpl] {L R : Type} [BEq L] [BEq R]

/-- that many places at which the items' own code runs -/
def users : Nat → Unw (GroupMap L R) Unit
  | 0 => return ()
  | n + 1 => do
    user
    users n

/-- `remove_right` — 735-751: the left items are taken out (740-749) before they are put into the `HashSet`, which hashes and
compares each -/
def removeRightU (item : R) : Unw (GroupMap L R) (Option (List L × R)) := do
  user
  user
  let m ← get
  match m.right.removeEntry (m.hb.hr item) (equivalentKeyRight item) with
  | none => return none
  | some (r, right') =>
    set { m with right := right' }
    let ls ← removeAllU false r.pairs.entries
    users (2 * ls.length)
    return some (collectSet ls, r.value)

/-- `remove` — 687-693 -/
def removeU (left : L) (right : R) : Unw (GroupMap L R) (Option (List L × R)) := do
  if ← arePairedU left right then removeRightU right else return none

/-- `insert` — 231-303 with the new first line of `Repair.insert`; the tables grow without running `Hash` -/
def insertU (left : L) (right : R) : Unw (GroupMap L R) Unit := do
  if ← arePairedU left right then return ()
  else
    user
    user
    user
    user
    let m ← get
    let lHash := m.hb.hl left
    let rHash := m.hb.hr right
    match m.left.getMut lHash (equivalentKeyLeft left), m.right.getMut rHash (equivalentKeyRight right) with
    | none, none =>
      let leftItem : LeftItem L := { value := left, hash := rHash, rid := m.rightCounter, id := m.leftCounter }
      set { m with left := m.left.insert lHash leftItem (·.hashWith m.hb.hl) }
      let m ← get
      let set' := (PairSet.new 1).insert (lHash, m.leftCounter)
      let rightItem : RightItem R := { value := right, pairs := set', id := m.rightCounter }
      set { m with right := m.right.insert rHash rightItem (·.hashWith m.hb.hr) }
      let m ← get
      set { m with leftCounter := m.leftCounter + 1, rightCounter := m.rightCounter + 1 }
    | some (l, writeL), none =>
      let pair := (lHash, l.id)
      match m.right.getMut l.hash (rightWithLeftPair pair) with
      | none => fail .unwrapNone
      | some (r, writeR) =>
        let m := { m with left := writeL { l with hash := rHash, rid := m.rightCounter },
                          right := writeR { r with pairs := r.pairs.remove pair } }
        set m
        let set' := (PairSet.new 1).insert pair
        let rightItem : RightItem R := { value := right, pairs := set', id := m.rightCounter }
        set { m with right := m.right.insert rHash rightItem (·.hashWith m.hb.hr) }
        let m ← get
        set { m with rightCounter := m.rightCounter + 1 }
    | none, some (r, writeR) =>
      let m := { m with right := writeR { r with pairs := r.pairs.insert (lHash, m.leftCounter) } }
      set m
      let leftItem : LeftItem L := { value := left, hash := rHash, rid := r.id, id := m.leftCounter }
      set { m with left := m.left.insert lHash leftItem (·.hashWith m.hb.hl) }
      let m ← get
      set { m with leftCounter := m.leftCounter + 1 }
    | some (l, writeL), some (r, writeR) =>
      let pair := (lHash, l.id)
      let right' := writeR { r with pairs := r.pairs.insert pair }
      set { m with right := right' }
      let newRId := r.id
      match right'.getMut l.hash (rightWithRightId l.rid) with
      | none => fail .unwrapNone
      | some (r', writeR') =>
        set { m with left := writeL { l with hash := rHash, rid := newRId },
                     right := writeR' { r' with pairs := r'.pairs.remove pair } }

/-- `insert_remove` — 341-367 -/
def insertRemoveU (left : L) (right : R) : Unw (GroupMap L R) (Option L × Option (List L × R)) := do
  let optFromLeft ← removeLeftU left
  let optFromRight ← removeRightU right
  user
  user
  let m ← get
  let lHash := m.hb.hl left
  let rHash := m.hb.hr right
  let leftItem : LeftItem L := { value := left, hash := rHash, id := m.leftCounter, rid := m.rightCounter }
  let set' := (PairSet.new 1).insert (lHash, m.leftCounter)
  let rightItem : RightItem R := { value := right, pairs := set', id := m.rightCounter }
  let m := { m with leftCounter := m.leftCounter + 1, rightCounter := m.rightCounter + 1 }
  set { m with left := m.left.insert lHash leftItem (·.hashWith m.hb.hl) }
  let m ← get
  set { m with right := m.right.insert rHash rightItem (·.hashWith m.hb.hr) }
  return (optFromLeft, optFromRight)

/-- `remove_left` — 706-718, of an item whose hash and bucket are known -/
def takeLeftU (item : L) : Unw (GroupMap L R) (Option L) := do
  let m ← get
  let lHash := m.hb.hl item
  match m.left.removeEntry lHash (equivalentKeyLeft item) with
  | none => return none
  | some (l, left') =>
    set { m with left := left' }
    let pair := (lHash, l.id)
    match m.right.getMut l.hash (rightWithLeftPair pair) with
    | none => fail .unwrapNone
    | some (r, writeR) =>
      set { m with left := left', right := writeR { r with pairs := r.pairs.remove pair } }
      return some l.value

/-- `insert_left` — 385-407: the left item is hashed and looked up before the pair is put into the group -/
def insertLeftU (left : L) (right : R) : Unw (GroupMap L R) (Option L) := do
  user
  user
  let m ← get
  let rHash := m.hb.hr right
  match m.right.getMut rHash (equivalentKeyRight right) with
  | none => return none
  | some (r, writeR) =>
    let rightId := r.id
    user
    user
    let lHash := m.hb.hl left
    set { m with right := writeR { r with pairs := r.pairs.insert (lHash, m.leftCounter) } }
    let digest ← takeLeftU left
    let m ← get
    let leftItem : LeftItem L := { value := left, hash := rHash, id := m.leftCounter, rid := rightId }
    let m := { m with leftCounter := m.leftCounter + 1 }
    set { m with left := m.left.insert lHash leftItem (·.hashWith m.hb.hl) }
    return digest

/-- `insert_right` — 434-449 -/
def insertRightU (right : R) : Unw (GroupMap L R) (Option (List L × R)) := do
  let digest ← removeRightU right
  user
  let m ← get
  let rHash := m.hb.hr right
  let rightItem : RightItem R := { value := right, pairs := PairSet.new 0, id := m.rightCounter }
  let m := { m with rightCounter := m.rightCounter + 1 }
  set { m with right := m.right.insert rHash rightItem (·.hashWith m.hb.hr) }
  return digest

/-- the loops 489-494 and 536-541, as in `Repair.rehashAll` -/
def rehashAllU (newHash : UInt64) (newId : Nat) : List (UInt64 × Nat) → Unw (GroupMap L R) Unit
  | [] => return ()
  | (h, i) :: rest => do
    let m ← get
    match m.left.getMut h (leftWithLeftId i) with
    | none => fail .unwrapNone
    | some (l, writeL) =>
      set { m with left := writeL { l with hash := newHash, rid := newId } }
      rehashAllU newHash newId rest

/-- `swap_right` — 472-497, as in `Repair.swapRightIds`, with the new item hashed (482) before the old one loses its group (479) -/
def swapRightIdsU (old new : R) : Unw (GroupMap L R) Unit := do
  user
  user
  let m ← get
  match m.right.getMut (m.hb.hr old) (equivalentKeyRight old) with
  | none => let _ ← insertRightU new
  | some (r, writeR) =>
    user
    let newHash := m.hb.hr new
    let set' := r.pairs.collect
    let m := { m with right := writeR { r with pairs := r.pairs.clear } }
    set m
    let newId := m.rightCounter
    let item : RightItem R := { value := new, pairs := set', id := newId }
    set { m with right := m.right.insert newHash item (·.hashWith m.hb.hr) }
    let m ← get
    set { m with rightCounter := m.rightCounter + 1 }
    rehashAllU newHash newId set'.entries

/-- … with the two new first lines of `Repair.swapRight` -/
def swapRightU (old new : R) : Unw (GroupMap L R) Unit := do
  user
  user
  user
  let m ← get
  if old == new && m.containsRight old then return ()
  else
    let _ ← removeRightU new
    swapRightIdsU old new

/-- `swap_right_remove` — 515-545, as in `Repair.swapRightRemoveIds`, with the old item looked up (517), then the new one hashed (528), then the
old one taken out by the bucket found -/
def swapRightRemoveIdsU (old new : R) : Unw (GroupMap L R) (Option R) := do
  user
  user
  let m ← get
  match m.right.removeEntry (m.hb.hr old) (equivalentKeyRight old) with
  | none =>
    let _ ← insertRightU new
    return none
  | some (r, right') =>
    user
    let newHash := m.hb.hr new
    let m := { m with right := right' }
    set m
    let set' := r.pairs.collect
    let newId := m.rightCounter
    let item : RightItem R := { value := new, pairs := set', id := newId }
    set { m with right := m.right.insert newHash item (·.hashWith m.hb.hr) }
    let m ← get
    set { m with rightCounter := m.rightCounter + 1 }
    rehashAllU newHash newId set'.entries
    return some r.value

/-- … with the new first line of `Repair.swapRightRemove` -/
def swapRightRemoveU (old new : R) : Unw (GroupMap L R) (Option R) := do
  user
  if old == new then swapRightRemoveIdsU old new
  else
    let _ ← removeRightU new
    swapRightRemoveIdsU old new

/-- `pair` — 562-591, with one lookup of `right` -/
def pairU (left : L) (right : R) : Unw (GroupMap L R) Bool := do
  user
  user
  user
  user
  let m ← get
  let lHash := m.hb.hl left
  let rHash := m.hb.hr right
  match m.left.getMut lHash (equivalentKeyLeft left), m.right.get rHash (equivalentKeyRight right) with
  | some (l, writeL), some r =>
    let left' := writeL { l with hash := rHash, rid := r.id }
    set { m with left := left' }
    match m.right.getMut l.hash (rightWithRightId l.rid) with
    | none => fail .unwrapNone
    | some (oldR, writeOld) =>
      let right' := writeOld { oldR with pairs := oldR.pairs.remove (lHash, l.id) }
      set { m with left := left', right := right' }
      match right'.getMut rHash (equivalentKeyRight right) with
      | none => fail .unwrapNone
      | some (newR, writeNew) =>
        set { m with left := left', right := writeNew { newR with pairs := newR.pairs.insert (lHash, l.id) } }
        return true
  | _, _ => return false

/-- `!` before a closure that may panic -/
def neg {σ : Type} (f : σ → L → R → Option Bool × σ) (s : σ) (l : L) (r : R) : Option Bool × σ := ((f s l r).1.map (!·), (f s l r).2)

/-- `!` before a closure that may panic -/
def neg1 {σ : Type} (f : σ → R → Option Bool × σ) (s : σ) (r : R) : Option Bool × σ := ((f s r).1.map (!·), (f s r).2)

/-- `retain_paired` — 972-988, as in `Repair.retainPaired`; the second loop runs no code of the items -/
def retainPairedU {σ : Type} (f : σ → L → R → Option Bool × σ) (st : σ) : Unw (GroupMap L R) Unit := do
  let m ← get
  let toDrop ← retainPairedScanU (neg f) m.iterPaired.todo st
  match Repair.retainPairedDrop m.left m.right toDrop with
  | .error p => fail p
  | .ok (left, right) => set { m with left := left, right := right }

/-- `retain_unpaired` — 1005-1021, as in `Repair.retainUnpaired` -/
def retainUnpairedU {σ : Type} (f : σ → R → Option Bool × σ) (st : σ) : Unw (GroupMap L R) Unit :=
  GroupMap.retainUnpairedU (neg1 f) st

/-- `extend` with pairs and lone right items — 1250-1266 -/
def extendOptU : List (Option L × R) → Unw (GroupMap L R) Unit
  | [] => user
  | (some l, r) :: rest => do
    user
    insertU l r
    extendOptU rest
  | (none, r) :: rest => do
    user
    let _ ← insertRightU r
    extendOptU rest

/-- `extend` with pairs — 1268-1280 -/
def extendU : List (L × R) → Unw (GroupMap L R) Unit
  | [] => user
  | (l, r) :: rest => do
    user
    insertU l r
    extendU rest

/-- Running a call of the repaired map. -/
def execU : Op L R → Unw (GroupMap L R) (Out L R)
  | .insert l r => do insertU l r; return .unit
  | .insertRemove l r => do let o ← insertRemoveU l r; return .leftAndGroup o.1 o.2
  | .insertLeft l r => do return .left (← insertLeftU l r)
  | .insertRight r => do return .group (← insertRightU r)
  | .swapRight old new => do swapRightU old new; return .unit
  | .swapRightRemove old new => do return .right (← swapRightRemoveU old new)
  | .pair l r => do return .bool (← pairU l r)
  | .remove l r => do return .group (← removeU l r)
  | .removeRight r => do return .group (← removeRightU r)
  | .retainPaired _ f s => do retainPairedU (sure f) s; return .unit
  | .retainUnpaired _ f s => do retainUnpairedU (sure1 f) s; return .unit
  | .extend xs => do extendU xs; return .unit
  | .extendOpt xs => do extendOptU xs; return .unit
  | op => GroupMap.execU op

/-- Running a call of the repaired map whose closure may panic. -/
def callU : Call L R → Unw (GroupMap L R) (Out L R)
  | .plain op => execU op
  | .retainPaired _ f s => do retainPairedU f s; return .unit
  | .retainUnpaired _ f s => do retainUnpairedU f s; return .unit

/-! ### Uninterrupted, they do what `Repair.exec` says -/
variable {m : GroupMap L R}

theorem users_bind {α : Type} {n : Nat} {g : Unit → Unw (GroupMap L R) α} {r : Res (α × GroupMap L R)} (h : Follows (g ()) m r) :
    Follows (users n >>= g) m r := by
  have key : ∀ n, Follows (users n) m (.ok ((), m)) := by
    intro n
    induction n with
    | zero => exact .pure
    | succ n ih => exact .user ih
  exact (key n).bind (r' := fun _ => r) (by rintro _ _ ⟨⟩; exact h)

theorem removeRightU_follows (r : R) : Follows (removeRightU r) m (m.removeRight r) := by
  refine .user <| .user <| .get ?_
  simp only [removeRight]
  cases m.right.removeEntry (m.hb.hr r) (equivalentKeyRight r) with
  | none => exact .pure
  | some x =>
    refine .set ?_
    have h2 := Follows.bind (g := fun ls => (do users (2 * ls.length); return some (collectSet ls, x.1.value) : Unw (GroupMap L R) _))
        (r' := fun y => .ok (some (collectSet y.1, x.1.value), y.2))
        (removeAllU_follows (m := { m with right := x.2 }) false x.1.pairs.entries) (fun a m' _ => users_bind .pure)
    simp only [bind, Except.bind, pure, Except.pure] at h2 ⊢
    cases h3 : removeAll m.left x.1.pairs.entries <;> rw [h3] at h2 <;> exact h2

theorem removeU_follows (l : L) (r : R) : Follows (removeU l r) m (m.remove l r) := by
  refine arePairedU_bind ?_
  simp only [remove]
  split
  · exact removeRightU_follows r
  · exact .pure

theorem insertU_follows (l : L) (r : R) : Follows (insertU l r) m (do return ((), ← Repair.insert m l r)) := by
  refine arePairedU_bind ?_
  simp only [Repair.insert]
  split
  · exact .pure
  refine .user <| .user <| .user <| .user <| .get ?_
  simp only [insert]
  cases h1 : m.left.getMut (m.hb.hl l) (equivalentKeyLeft l) with
  | none =>
    cases h2 : m.right.getMut (m.hb.hr r) (equivalentKeyRight r) with
    | none => exact .set <| .get <| .set <| .get follows_set
    | some y => exact .set <| .set <| .get follows_set
  | some x =>
    cases h2 : m.right.getMut (m.hb.hr r) (equivalentKeyRight r) with
    | none =>
      simp only
      cases h3 : m.right.getMut x.1.hash (rightWithLeftPair (m.hb.hl l, x.1.id)) with
      | none => exact .fail
      | some y => exact .set <| .set <| .get follows_set
    | some y =>
      refine .set ?_
      simp only
      cases h3 : (y.2 { y.1 with pairs := y.1.pairs.insert (m.hb.hl l, x.1.id) }).getMut x.1.hash (rightWithRightId x.1.rid) with
      | none => exact .fail
      | some z => exact follows_set

theorem insertRemoveU_follows (l : L) (r : R) : Follows (insertRemoveU l r) m (m.insertRemove l r) := by
  refine (removeLeftU_follows l).bind fun a m1 _ => ?_
  refine (removeRightU_follows r).bind fun b m2 _ => ?_
  exact .user <| .user <| .get <| .set <| .get <| .set .pure

theorem takeLeftU_follows (l : L) : Follows (takeLeftU l) m (m.removeLeft l) := by
  refine .get ?_
  simp only [removeLeft]
  cases m.left.removeEntry (m.hb.hl l) (equivalentKeyLeft l) with
  | none => exact .pure
  | some x =>
    refine .set ?_
    simp only
    cases m.right.getMut x.1.hash (rightWithLeftPair (m.hb.hl l, x.1.id)) with
    | none => exact .fail
    | some y => exact .set .pure

theorem insertLeftU_follows (l : L) (r : R) : Follows (insertLeftU l r) m (m.insertLeft l r) := by
  refine .user <| .user <| .get ?_
  simp only [insertLeft]
  cases m.right.getMut (m.hb.hr r) (equivalentKeyRight r) with
  | none => exact .pure
  | some y =>
    refine .user <| .user <| .set <| (takeLeftU_follows l).bind fun a m1 _ => ?_
    exact .get <| .set .pure

theorem insertRightU_follows (r : R) : Follows (insertRightU r) m (m.insertRight r) := by
  refine (removeRightU_follows r).bind fun a m1 _ => ?_
  exact .user <| .get <| .set .pure

theorem rehashAllU_follows (a : UInt64) (i : Nat) (ks : List (UInt64 × Nat)) :
    Follows (rehashAllU a i ks) m (do let t ← Repair.rehashAll a i m.left ks; return ((), { m with left := t })) := by
  induction ks generalizing m with
  | nil => exact .pure
  | cons k ks ih =>
    simp only [rehashAllU, Repair.rehashAll]
    refine .get ?_
    cases h1 : m.left.getMut k.1 (leftWithLeftId k.2) with
    | none => exact .fail
    | some x => exact .set <| ih (m := { m with left := x.2 { x.1 with hash := a, rid := i } })

theorem swapRightIdsU_follows (a b : R) : Follows (swapRightIdsU a b) m (do return ((), ← Repair.swapRightIds m a b)) := by
  refine .user <| .user <| .get ?_
  simp only [Repair.swapRightIds]
  cases m.right.getMut (m.hb.hr a) (equivalentKeyRight a) with
  | none =>
    have := Follows.bind (g := fun _ => (pure () : Unw (GroupMap L R) _)) (insertRightU_follows (m := m) b)
      (r' := fun x => .ok ((), x.2)) (fun a m' _ => .pure)
    simp only [bind, Except.bind, pure, Except.pure] at this ⊢
    cases h : m.insertRight b <;> rw [h] at this <;> exact this
  | some y =>
    refine .user <| .set <| .set <| .get <| .set ?_
    have := rehashAllU_follows (m := { m with
      right := (y.2 { y.1 with pairs := y.1.pairs.clear }).insert (m.hb.hr b) ⟨b, y.1.pairs.collect, m.rightCounter⟩ (·.hashWith m.hb.hr),
      rightCounter := m.rightCounter + 1 }) (m.hb.hr b) m.rightCounter y.1.pairs.collect.entries
    simp only [bind, Except.bind, pure, Except.pure] at this ⊢
    cases h : Repair.rehashAll (m.hb.hr b) m.rightCounter m.left y.1.pairs.collect.entries <;> rw [h] at this <;> exact this

theorem swapRightU_follows (a b : R) : Follows (swapRightU a b) m (do return ((), ← Repair.swapRight m a b)) := by
  refine .user <| .user <| .user <| .get ?_
  simp only [Repair.swapRight]
  split
  · exact .pure
  · have := Follows.bind (g := fun _ => swapRightIdsU a b) (removeRightU_follows (m := m) b)
      (r' := fun x => do return ((), ← Repair.swapRightIds x.2 a b)) (fun _ m' _ => swapRightIdsU_follows a b)
    simp only [bind, Except.bind, pure, Except.pure] at this ⊢
    cases h : m.removeRight b <;> rw [h] at this <;> exact this

theorem swapRightRemoveIdsU_follows (a b : R) : Follows (swapRightRemoveIdsU a b) m (Repair.swapRightRemoveIds m a b) := by
  refine .user <| .user <| .get ?_
  simp only [Repair.swapRightRemoveIds]
  cases m.right.removeEntry (m.hb.hr a) (equivalentKeyRight a) with
  | none =>
    have := Follows.bind (g := fun _ => (pure none : Unw (GroupMap L R) (Option R))) (insertRightU_follows (m := m) b)
      (r' := fun x => .ok (none, x.2)) (fun a m' _ => .pure)
    simp only [bind, Except.bind, pure, Except.pure] at this ⊢
    cases h : m.insertRight b <;> rw [h] at this <;> exact this
  | some y =>
    refine .user <| .set <| .set <| .get <| .set ?_
    have := Follows.bind (g := fun _ => (pure (some y.1.value) : Unw (GroupMap L R) _))
      (rehashAllU_follows (m := { m with
      right := y.2.insert (m.hb.hr b) ⟨b, y.1.pairs.collect, m.rightCounter⟩ (·.hashWith m.hb.hr),
      rightCounter := m.rightCounter + 1 }) (m.hb.hr b) m.rightCounter y.1.pairs.collect.entries)
      (r' := fun x => .ok (some y.1.value, x.2)) (fun a m' _ => .pure)
    simp only [bind, Except.bind, pure, Except.pure] at this ⊢
    cases h : Repair.rehashAll (m.hb.hr b) m.rightCounter m.left y.1.pairs.collect.entries <;> rw [h] at this <;> exact this

theorem swapRightRemoveU_follows (a b : R) : Follows (swapRightRemoveU a b) m (Repair.swapRightRemove m a b) := by
  refine .user ?_
  simp only [Repair.swapRightRemove]
  split
  · exact swapRightRemoveIdsU_follows a b
  · exact (removeRightU_follows b).bind fun _ _ _ => swapRightRemoveIdsU_follows a b

theorem pairU_follows (l : L) (r : R) : Follows (pairU l r) m (m.pair l r) := by
  refine .user <| .user <| .user <| .user <| .get ?_
  simp only [pair]
  cases m.left.getMut (m.hb.hl l) (equivalentKeyLeft l) with
  | none => exact .pure
  | some x =>
    cases m.right.get (m.hb.hr r) (equivalentKeyRight r) with
    | none => exact .pure
    | some y =>
      refine .set ?_
      simp only
      cases m.right.getMut x.1.hash (rightWithRightId x.1.rid) with
      | none => exact .fail
      | some z =>
        refine .set ?_
        simp only
        cases (z.2 { z.1 with pairs := z.1.pairs.remove (m.hb.hl l, x.1.id) }).getMut (m.hb.hr r) (equivalentKeyRight r) with
        | none => exact .fail
        | some w => exact .set .pure

theorem neg_sure {σ : Type} (f : σ → L → R → Bool × σ) : neg (sure f) = sure fun s l r => (!(f s l r).1, (f s l r).2) := rfl

theorem neg1_sure {σ : Type} (f : σ → R → Bool × σ) :
    (neg1 (sure1 f) : σ → R → Option Bool × σ) = sure1 fun s r => (!(f s r).1, (f s r).2) := rfl

theorem retainPairedU_follows {σ : Type} (f : σ → L → R → Bool × σ) (st : σ) :
    Follows (retainPairedU (sure f) st) m (do let (_, m) ← Repair.retainPaired m f st; return ((), m)) := by
  refine .get ?_
  rw [neg_sure]
  have h1 := pairedScan_eq (m := m) (fun s l r => (!(f s l r).1, (f s l r).2)) m.iterPaired.todo st (m.left.len + 1)
    (by simp [iterPaired, RawTable.toList, RawTable.len])
  have h2 := Follows.bind (g := fun d => (match Repair.retainPairedDrop m.left m.right d with
      | .error p => fail p
      | .ok (left, right) => set { m with left := left, right := right } : Unw (GroupMap L R) Unit))
    (retainPairedScanU_follows (m := m) (fun s l r => (!(f s l r).1, (f s l r).2)) m.iterPaired.todo st)
    (r' := fun x => do let (left, right) ← Repair.retainPairedDrop m.left m.right x.1; return ((), { m with left := left, right := right }))
    (fun a m' _ => by
      cases h : Repair.retainPairedDrop m.left m.right a with
      | error p => simp only [h, bind, Except.bind]; exact .fail
      | ok v => simp only [h, bind, Except.bind]; exact follows_set)
  rw [← h1] at h2
  simp only [Repair.retainPaired, iterPairedList, bind, Except.bind, pure, Except.pure] at h2 ⊢
  simp only [iterPaired] at h2 ⊢
  cases h3 : PairedIter.take m (m.left.len + 1) ⟨m.left.toList⟩ with
  | error p => simp only [h3] at h2 ⊢; exact h2
  | ok v =>
    simp only [h3] at h2 ⊢
    cases h4 : m.retainPairedScan (fun s l r => (!(f s l r).1, (f s l r).2)) v.1 st with
    | error p => simp only [h4] at h2 ⊢; exact h2
    | ok w =>
      simp only [h4] at h2 ⊢
      cases h5 : Repair.retainPairedDrop m.left m.right w.1 <;> simp only [h5] at h2 ⊢ <;> exact h2

theorem retainUnpairedU_follows {σ : Type} (f : σ → R → Bool × σ) (st : σ) :
    Follows (retainUnpairedU (sure1 f) st) m (do let (_, m) ← Repair.retainUnpaired m f st; return ((), m)) := by
  unfold retainUnpairedU Repair.retainUnpaired
  rw [neg1_sure]
  exact GroupMap.retainUnpairedU_follows _ st

theorem extendOptU_follows (xs : List (Option L × R)) : Follows (extendOptU xs) m (do return ((), ← Repair.extendOpt m xs)) := by
  induction xs generalizing m with
  | nil => exact GroupMap.extendOptU_follows (m := m) []
  | cons x xs ih =>
    obtain ⟨_ | l, r⟩ := x
    · refine .user ?_
      have := Follows.bind (g := fun _ => extendOptU xs) (insertRightU_follows (m := m) r)
        (r' := fun x => do return ((), ← Repair.extendOpt x.2 xs)) (fun a m' _ => ih)
      simp only [Repair.extendOpt, bind, Except.bind, pure, Except.pure] at this ⊢
      cases h : m.insertRight r <;> rw [h] at this <;> exact this
    · refine .user ?_
      have := Follows.bind (g := fun _ => extendOptU xs) (insertU_follows (m := m) l r)
        (r' := fun x => do return ((), ← Repair.extendOpt x.2 xs)) (fun a m' _ => ih)
      simp only [Repair.extendOpt, bind, Except.bind, pure, Except.pure] at this ⊢
      cases h : Repair.insert m l r <;> rw [h] at this <;> exact this

theorem extendU_eq (xs : List (L × R)) : (extendU xs : Unw (GroupMap L R) Unit) = extendOptU (xs.map fun p => (some p.1, p.2)) := by
  induction xs with
  | nil => rfl
  | cons x xs ih => simp only [extendU, List.map_cons, extendOptU, ih]

theorem follows_unit {β : Type} {x : Unw (GroupMap L R) Unit} {r : Res (GroupMap L R)} {b : β} (h : Follows x m (do return ((), ← r))) :
    Follows (do x; return b) m (do return (b, ← r)) := by
  have := h.bind (g := fun _ => (pure b : Unw (GroupMap L R) β)) (r' := fun y => .ok (b, y.2)) fun _ _ _ => Follows.pure
  simp only [bind, Except.bind, pure, Except.pure] at this ⊢
  cases r <;> exact this

theorem follows_void {α β : Type} {x : Unw (GroupMap L R) Unit} {r : Res (α × GroupMap L R)} {b : β}
    (h : Follows x m (do let (_, m) ← r; return ((), m))) :
    Follows (do x; return b) m (do let (_, m) ← r; return (b, m)) := by
  have := h.bind (g := fun _ => (pure b : Unw (GroupMap L R) β)) (r' := fun y => .ok (b, y.2)) fun _ _ _ => Follows.pure
  simp only [bind, Except.bind, pure, Except.pure] at this ⊢
  cases r <;> exact this

theorem extend_eq (xs : List (L × R)) : Repair.extend m xs = Repair.extendOpt m (xs.map fun p => (some p.1, p.2)) := by
  induction xs generalizing m with
  | nil => rfl
  | cons x xs ih => simp only [Repair.extend, List.map_cons, Repair.extendOpt, ih]

theorem execU_follows (op : Op L R) : Follows (execU op) m (Repair.exec m op) := by
  have unchanged := GroupMap.execU_follows (m := m) op
  cases op
  case insert l r => exact follows_unit (insertU_follows l r)
  case insertRemove l r => exact (insertRemoveU_follows l r).bind fun _ _ _ => .pure
  case insertLeft l r => exact follows_map (insertLeftU_follows l r)
  case insertRight r => exact follows_map (insertRightU_follows r)
  case swapRight a b => exact follows_unit (swapRightU_follows a b)
  case swapRightRemove a b => exact follows_map (swapRightRemoveU_follows a b)
  case pair l r => exact follows_map (pairU_follows l r)
  case remove l r => exact follows_map (removeU_follows l r)
  case removeRight r => exact follows_map (removeRightU_follows r)
  case retainPaired σ f s => exact follows_void (retainPairedU_follows f s)
  case retainUnpaired σ f s => exact follows_void (retainUnpairedU_follows f s)
  case extend xs =>
    have := follows_unit (b := (Out.unit : Out L R)) (extendOptU_follows (m := m) (xs.map fun p => (some p.1, p.2)))
    rw [← extend_eq, ← extendU_eq] at this
    exact this
  case extendOpt xs => exact follows_unit (extendOptU_follows xs)
  all_goals exact unchanged

end
end Verif.GroupMap.Sturdy
