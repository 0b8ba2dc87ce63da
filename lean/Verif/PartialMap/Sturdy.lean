import Verif.PartialMap.UnwindValid
import Verif.PartialMap.RepairMachine
/-
A repair of `PartialCycleMap` (not in /repo): the calls of `Verif.PartialMap.Unwind`, that is `/repo/src/partial_cycle_map.rs` with
panics that unwind, with the repairs of `Verif.PartialMap.Repair` (so that they do what is documented), and changed in these ways.

* Every item stores its own hash, and the closure handed to the tables for moving their elements reads it instead of running
  `Hash`.  A table that grows then runs no code of the items.  (The stored hash is the one `Hash` would give, C85.)
* `swap_left` and `swap_right` take the old item out by the bucket they have found, instead of looking it up once more after its
  partner has been changed.

Everything else is as it is.
-/
set_option linter.unusedSectionVars false
set_option linter.unusedSimpArgs false
namespace Verif.PartialMap.Sturdy
open PartialSpec OptionalPair Unw

section
variable [RawImpl] {L R : Type} [BEq L] [BEq R]

/-- that many places at which the items' own code runs -/
def users : Nat → Unw (PartialMap L R) Unit
  | 0 => return ()
  | n + 1 => do
    user
    users n

/-- a call that runs no code of the items (partial_cycle_map.rs:1366-1418, 1580-1665) -/
def quietU {α : Type} (r : PartialMap L R → Res (α × PartialMap L R)) : Unw (PartialMap L R) α := do
  let m ← get
  match r m with
  | .error p => fail p
  | .ok (a, m') =>
    set m'
    return a

/-- `insert` — 162-190, where the two insertions run no code of the items -/
def insertU (left : L) (right : R) : Unw (PartialMap L R) (OptionalPair L R × OptionalPair L R) := do
  let optFromLeft ← removeViaLeftU left
  let optFromRight ← removeViaRightU right
  user
  user
  let m ← get
  let lHash := m.hb.hl left
  let rHash := m.hb.hr right
  let leftPairing : MappingPair L := { value := left, hash := some rHash, id := m.counter }
  let rightPairing : MappingPair R := { value := right, hash := some lHash, id := m.counter }
  let m := { m with counter := m.counter + 1 }
  set { m with left := m.left.insert lHash leftPairing (·.hashWith m.hb.hl) }
  let m ← get
  set { m with right := m.right.insert rHash rightPairing (·.hashWith m.hb.hr) }
  return (optFromLeft, optFromRight)

/-- `insert_left` — 222-238, where the insertion runs no code of the items -/
def insertLeftU (left : L) : Unw (PartialMap L R) (OptionalPair L R) := do
  let opt ← removeViaLeftU left
  user
  let m ← get
  let pairing : MappingPair L := { value := left, hash := none, id := m.counter }
  set { m with counter := m.counter + 1, left := m.left.insert (m.hb.hl left) pairing (·.hashWith m.hb.hl) }
  return opt

/-- `swap_left` — 842-887 without the new first line: after the probe for `old` no code of the items runs -/
def swapLeftCoreU (old new : L) : Unw (PartialMap L R) (OptionalPair L (OptionalPair L R)) := do
  user
  let m ← get
  let newHash := m.hb.hl new
  let eqOpt ← swapLeftEqCheckU old new newHash
  user
  user
  let m ← get
  let oldHash := m.hb.hl old
  match m.left.get oldHash (equivalentKey old) with
  | none => return neither
  | some p =>
    match p.hash with
    | some hash =>
      match m.right.getMut hash (hashAndId oldHash p.id) with
      | none => fail .unwrapNone
      | some (q, write) => set { m with right := write { q with hash := some newHash } }
    | none => pure ()
    let m ← get
    match m.left.removeEntry oldHash (equivalentKey old) with
    | none => fail .unwrapNone
    | some (oldP, t) =>
      set { m with left := t }
      let m ← get
      set { m with left := m.left.insert newHash { value := new, hash := p.hash, id := p.id } (·.hashWith m.hb.hl) }
      if eqOpt.isNone then return someLeft oldP.value else return someBoth oldP.value eqOpt

/-- `swap_left` — 842-887, with the new first line of `Repair.swapLeft` -/
def swapLeftU (old new : L) : Unw (PartialMap L R) (OptionalPair L (OptionalPair L R)) := do
  user
  user
  let m ← get
  if !m.containsLeft old then return neither else swapLeftCoreU old new

/-- `swap_left_checked` — 909-920 -/
def swapLeftCheckedU (old : L) (expected : R) (new : L) : Unw (PartialMap L R) (OptionalPair L (OptionalPair L R)) := do
  if !(← arePairedU old expected) then return neither else swapLeftCoreU old new

/-- `swap_left_or_insert` — 940-959, with all cases of `Repair.swapLeftOrInsert` -/
def swapLeftOrInsertU (old new : L) (toInsert : R) : Unw (PartialMap L R) (OptionalPair L (OptionalPair L R)) := do
  user
  user
  let m ← get
  if (m.left.get (m.hb.hl old) (equivalentKey old)).isSome then swapLeftCoreU old new
  else do
    match ← insertU new toInsert with
    | (neither, neither) => return neither
    | (neither, e) => return someRight e
    | (e, neither) => return someRight e
    | (e, e') => return ofPair (e.toPair.1, some e')

/-- `insert_right` — 269-285, where the insertion runs no code of the items -/
def insertRightU (right : R) : Unw (PartialMap L R) (OptionalPair L R) := do
  let opt ← removeViaRightU right
  user
  let m ← get
  let pairing : MappingPair R := { value := right, hash := none, id := m.counter }
  set { m with counter := m.counter + 1, right := m.right.insert (m.hb.hr right) pairing (·.hashWith m.hb.hr) }
  return opt

/-- `swap_right` — 997-1042 without the new first line: after the probe for `old` no code of the items runs -/
def swapRightCoreU (old new : R) : Unw (PartialMap L R) (OptionalPair R (OptionalPair L R)) := do
  user
  let m ← get
  let newHash := m.hb.hr new
  let eqOpt ← swapRightEqCheckU old new newHash
  user
  user
  let m ← get
  let oldHash := m.hb.hr old
  match m.right.get oldHash (equivalentKey old) with
  | none => return neither
  | some p =>
    match p.hash with
    | some hash =>
      match m.left.getMut hash (hashAndId oldHash p.id) with
      | none => fail .unwrapNone
      | some (q, write) => set { m with left := write { q with hash := some newHash } }
    | none => pure ()
    let m ← get
    match m.right.removeEntry oldHash (equivalentKey old) with
    | none => fail .unwrapNone
    | some (oldP, t) =>
      set { m with right := t }
      let m ← get
      set { m with right := m.right.insert newHash { value := new, hash := p.hash, id := p.id } (·.hashWith m.hb.hr) }
      if eqOpt.isNone then return someLeft oldP.value else return someBoth oldP.value eqOpt

/-- `swap_right` — 997-1042, with the new first line of `Repair.swapRight` -/
def swapRightU (old new : R) : Unw (PartialMap L R) (OptionalPair R (OptionalPair L R)) := do
  user
  user
  let m ← get
  if !m.containsRight old then return neither else swapRightCoreU old new

/-- `swap_right_checked` — 1064-1075 -/
def swapRightCheckedU (old : R) (expected : L) (new : R) : Unw (PartialMap L R) (OptionalPair R (OptionalPair L R)) := do
  if !(← arePairedU expected old) then return neither else swapRightCoreU old new

/-- `swap_right_or_insert` — 1095-1119, with all cases of `Repair.swapRightOrInsert` -/
def swapRightOrInsertU (old new : R) (toInsert : L) : Unw (PartialMap L R) (OptionalPair R (OptionalPair L R)) := do
  user
  user
  let m ← get
  if (m.right.get (m.hb.hr old) (equivalentKey old)).isSome then swapRightCoreU old new
  else do
    match ← insertU toInsert new with
    | (neither, neither) => return neither
    | (e, neither) => return someRight e
    | (neither, e) => return someRight e
    | (e, e') => return ofPair (e'.toPair.2, some e)

/-- `unpair` — 550-572, with the new first line of `Repair.unpair` -/
def unpairU (left : L) (right : R) : Unw (PartialMap L R) Bool := do
  if !(← arePairedU left right) then return false else PartialMap.unpairU left right

/-- a `for` loop over `iter()` — 1248-1253 with `Repair.Iter.next`: each left item is hashed and compared once (1174-1189).  The loop does
not change the map, so it is no simplification to say at once how often that is. -/
def iterU : Unw (PartialMap L R) (List (OptionalPair L R)) := do
  let m ← get
  users (2 * m.lenLeft)
  return Repair.iterList m

/-- the negation in line 1492 that `Repair.retainPaired` has -/
def neg₂ {σ : Type} (f : σ → L → R → Option Bool × σ) (s : σ) (l : L) (r : R) : Option Bool × σ :=
  ((f s l r).1.map (!·), (f s l r).2)

/-- the negation in line 1526 that `Repair.retainUnpaired` has -/
def neg {σ : Type} (f : σ → OptionalPair L R → Option Bool × σ) (s : σ) (o : OptionalPair L R) : Option Bool × σ :=
  ((f s o).1.map (!·), (f s o).2)

/-- a closure, where it does not panic -/
def calm₂ {σ : Type} (f : σ → L → R → Option Bool × σ) (s : σ) (l : L) (r : R) : Bool × σ := ((f s l r).1.getD false, (f s l r).2)

/-- a closure, where it does not panic -/
def calm {σ : Type} (f : σ → OptionalPair L R → Option Bool × σ) (s : σ) (o : OptionalPair L R) : Bool × σ :=
  ((f s o).1.getD false, (f s o).2)

/-- `retain_paired` — 1486-1502, with `if !f(left, right)` -/
def retainPairedU {σ : Type} (f : σ → L → R → Option Bool × σ) (st : σ) : Unw (PartialMap L R) Unit :=
  PartialMap.retainPairedU (neg₂ f) st

/-- `retain_unpaired` — 1519-1557, with `if !f(&op)` -/
def retainUnpairedU {σ : Type} (f : σ → OptionalPair L R → Option Bool × σ) (st : σ) : Unw (PartialMap L R) Unit :=
  PartialMap.retainUnpairedU (neg f) st

/-- the closure `|l, r| f(&SomeBoth(l, r))` of `Repair.retain` (for 1434-1469) -/
def onPairs {σ τ : Type} (f : σ → OptionalPair L R → τ × σ) (s : σ) (l : L) (r : R) : τ × σ := f s (someBoth l r)

/-- `retain` — 1434-1469, replaced as in `Repair.retain`.  (The state in which `retain_paired` leaves the closure is taken from the main
model: it is asked for only if the closure has not panicked.) -/
def retainU {σ : Type} (f : σ → OptionalPair L R → Option Bool × σ) (st : σ) : Unw (PartialMap L R) Unit := do
  let m ← get
  retainPairedU (onPairs f) st
  match Repair.retainPaired m (calm₂ (onPairs f)) st with
  | .error p => fail p
  | .ok (st', _) => retainUnpairedU f st'

/-- `Extend<(L, R)>` — 1925-1937; the iterator it is given may panic, too -/
def extendPairsU : List (L × R) → Unw (PartialMap L R) Unit
  | [] => user
  | (l, r) :: rest => do
    user
    let _ ← insertU l r
    extendPairsU rest

/-- `Extend<OptionalPair<L, R>>` — 1939-1962 -/
def extendU : List (OptionalPair L R) → Unw (PartialMap L R) Unit
  | [] => user
  | neither :: rest => do
    user
    extendU rest
  | someLeft l :: rest => do
    user
    let _ ← insertLeftU l
    extendU rest
  | someRight r :: rest => do
    user
    let _ ← insertRightU r
    extendU rest
  | someBoth l r :: rest => do
    user
    let _ ← insertU l r
    extendU rest

/-- Running a repaired call (partial_cycle_map.rs:142-1962), with panics that unwind. -/
def execU : Op L R → Unw (PartialMap L R) (Out L R)
  | .insert l r => do return .twoEntries (← insertU l r)
  | .insertLeft l => do return .entry (← insertLeftU l)
  | .insertRight r => do return .entry (← insertRightU r)
  | .unpair l r => do return .bool (← unpairU l r)
  | .swapLeft old new => do return .swappedLeft (← swapLeftU old new)
  | .swapLeftChecked old e new => do return .swappedLeft (← swapLeftCheckedU old e new)
  | .swapLeftOrInsert old new r => do return .swappedLeft (← swapLeftOrInsertU old new r)
  | .swapRight old new => do return .swappedRight (← swapRightU old new)
  | .swapRightChecked old e new => do return .swappedRight (← swapRightCheckedU old e new)
  | .swapRightOrInsert old new l => do return .swappedRight (← swapRightOrInsertU old new l)
  | .iter => do return .entries (← iterU)
  | .retain _ f s => do retainU (sure f) s; return .unit
  | .retainPaired _ f s => do retainPairedU (sure₂ f) s; return .unit
  | .retainUnpaired _ f s => do retainUnpairedU (sure f) s; return .unit
  | .extendPairs xs => do extendPairsU xs; return .unit
  | .extend xs => do extendU xs; return .unit
  | .drain n => quietU fun m => Repair.exec m (.drain n)
  | .drainFilter σ f s n => quietU fun m => Repair.exec m (.drainFilter σ f s n)
  | .reserveLeft n => quietU fun m => m.exec (.reserveLeft n)
  | .reserveRight n => quietU fun m => m.exec (.reserveRight n)
  | .tryReserveLeft n ok => quietU fun m => m.exec (.tryReserveLeft n ok)
  | .tryReserveRight n ok => quietU fun m => m.exec (.tryReserveRight n ok)
  | .shrinkToLeft n => quietU fun m => m.exec (.shrinkToLeft n)
  | .shrinkToRight n => quietU fun m => m.exec (.shrinkToRight n)
  | .shrinkToFit => quietU fun m => m.exec .shrinkToFit
  | op => PartialMap.execU op

/-- A call whose closure may panic, or one of the others.  (The closure of `drain_filter` does not panic here.) -/
inductive Call (L R : Type) : Type 1 where
  | plain (op : Op L R)
  | retain (σ : Type) (f : σ → OptionalPair L R → Option Bool × σ) (s : σ)
  | retainPaired (σ : Type) (f : σ → L → R → Option Bool × σ) (s : σ)
  | retainUnpaired (σ : Type) (f : σ → OptionalPair L R → Option Bool × σ) (s : σ)

/-- Running such a call (partial_cycle_map.rs:142-1962). -/
def callU : Call L R → Unw (PartialMap L R) (Out L R)
  | .plain op => execU op
  | .retain _ f s => do retainU f s; return .unit
  | .retainPaired _ f s => do retainPairedU f s; return .unit
  | .retainUnpaired _ f s => do retainUnpairedU f s; return .unit

/-! ### Uninterrupted, they do what `Repair.exec` says -/
variable {m : PartialMap L R}

theorem users_bind {α : Type} {n : Nat} {g : Unit → Unw (PartialMap L R) α} {r : Res (α × PartialMap L R)} (h : Follows (g ()) m r) :
    Follows (users n >>= g) m r := by
  have key : ∀ n, Follows (users n) m (.ok ((), m)) := by
    intro n
    induction n with
    | zero => exact .pure
    | succ n ih => exact .user ih
  exact (key n).bind (r' := fun _ => r) (by rintro _ _ ⟨⟩; exact h)

theorem quietU_follows {α : Type} (r : PartialMap L R → Res (α × PartialMap L R)) : Follows (quietU r) m (r m) := by
  refine .get ?_
  cases r m with
  | error p => exact .fail
  | ok x => exact .set .pure

theorem insertU_follows (l : L) (r : R) : Follows (insertU l r) m (m.insert l r) := by
  refine (removeViaLeftU_follows l).bind fun a m1 _ => ?_
  refine (removeViaRightU_follows r).bind fun b m2 _ => ?_
  exact .user <| .user <| .get <| .set <| .get <| .set .pure

theorem insertLeftU_follows (x : L) : Follows (insertLeftU x) m (m.insertLeft x) := by
  refine (removeViaLeftU_follows x).bind fun a m1 _ => ?_
  exact .user <| .get <| .set .pure

theorem swapLeftCoreU_follows (a b : L) : Follows (swapLeftCoreU a b) m (m.swapLeft a b) := by
  refine .user <| .get <| (swapLeftEqCheckU_follows a b _).bind fun o m1 _ => ?_
  refine .user <| .user <| .get ?_
  simp only
  cases m1.left.get (m1.hb.hl a) (equivalentKey a) with
  | none => exact .pure
  | some x =>
    simp only
    cases x.hash with
    | none =>
      refine .get ?_
      simp only [ok_bind, pure_bind]
      cases m1.left.removeEntry (m1.hb.hl a) (equivalentKey a) with
      | none => exact .fail
      | some z => exact .set <| .get <| .set (by split <;> exact .pure)
    | some h =>
      simp only
      cases m1.right.getMut h (hashAndId (m1.hb.hl a) x.id) with
      | none => exact .fail
      | some y =>
        refine .set <| .get ?_
        simp only [ok_bind, pure_bind]
        cases m1.left.removeEntry (m1.hb.hl a) (equivalentKey a) with
        | none => exact .fail
        | some z => exact .set <| .get <| .set (by split <;> exact .pure)

theorem swapLeftU_follows (a b : L) : Follows (swapLeftU a b) m (Repair.swapLeft m a b) := by
  refine .user <| .user <| .get ?_
  simp only [Repair.swapLeft]
  split
  · exact .pure
  · exact swapLeftCoreU_follows a b

theorem swapLeftCheckedU_follows (a : L) (e : R) (b : L) : Follows (swapLeftCheckedU a e b) m (m.swapLeftChecked a e b) := by
  refine arePairedU_bind ?_
  simp only [swapLeftChecked]
  split
  · exact .pure
  · exact swapLeftCoreU_follows a b

theorem swapLeftOrInsertU_follows (a b : L) (x : R) :
    Follows (swapLeftOrInsertU a b x) m (Repair.swapLeftOrInsert m a b x) := by
  refine .user <| .user <| .get ?_
  simp only [Repair.swapLeftOrInsert]
  split
  · exact swapLeftCoreU_follows a b
  · refine (insertU_follows b x).bind fun o m' _ => ?_
    obtain ⟨x, y⟩ := o
    cases x <;> cases y <;> exact .pure

theorem insertRightU_follows (x : R) : Follows (insertRightU x) m (m.insertRight x) := by
  refine (removeViaRightU_follows x).bind fun a m1 _ => ?_
  exact .user <| .get <| .set .pure

theorem swapRightCoreU_follows (a b : R) : Follows (swapRightCoreU a b) m (m.swapRight a b) := by
  refine .user <| .get <| (swapRightEqCheckU_follows a b _).bind fun o m1 _ => ?_
  refine .user <| .user <| .get ?_
  simp only
  cases m1.right.get (m1.hb.hr a) (equivalentKey a) with
  | none => exact .pure
  | some x =>
    simp only
    cases x.hash with
    | none =>
      refine .get ?_
      simp only [ok_bind, pure_bind]
      cases m1.right.removeEntry (m1.hb.hr a) (equivalentKey a) with
      | none => exact .fail
      | some z => exact .set <| .get <| .set (by split <;> exact .pure)
    | some h =>
      simp only
      cases m1.left.getMut h (hashAndId (m1.hb.hr a) x.id) with
      | none => exact .fail
      | some y =>
        refine .set <| .get ?_
        simp only [ok_bind, pure_bind]
        cases m1.right.removeEntry (m1.hb.hr a) (equivalentKey a) with
        | none => exact .fail
        | some z => exact .set <| .get <| .set (by split <;> exact .pure)

theorem swapRightU_follows (a b : R) : Follows (swapRightU a b) m (Repair.swapRight m a b) := by
  refine .user <| .user <| .get ?_
  simp only [Repair.swapRight]
  split
  · exact .pure
  · exact swapRightCoreU_follows a b

theorem swapRightCheckedU_follows (a : R) (e : L) (b : R) : Follows (swapRightCheckedU a e b) m (m.swapRightChecked a e b) := by
  refine arePairedU_bind ?_
  simp only [swapRightChecked]
  split
  · exact .pure
  · exact swapRightCoreU_follows a b

theorem swapRightOrInsertU_follows (a b : R) (x : L) :
    Follows (swapRightOrInsertU a b x) m (Repair.swapRightOrInsert m a b x) := by
  refine .user <| .user <| .get ?_
  simp only [Repair.swapRightOrInsert]
  split
  · exact swapRightCoreU_follows a b
  · refine (insertU_follows x b).bind fun o m' _ => ?_
    obtain ⟨x, y⟩ := o
    cases x <;> cases y <;> exact .pure

theorem unpairU_follows (l : L) (r : R) : Follows (unpairU l r) m (.ok ((Repair.unpair m l r).1, (Repair.unpair m l r).2)) := by
  refine arePairedU_bind ?_
  simp only [Repair.unpair]
  split
  · exact .pure
  · exact PartialMap.unpairU_follows l r

theorem iterU_follows : Follows iterU m (.ok (Repair.iterList m, m)) := .get <| users_bind .pure

theorem retainPairedU_follows {σ : Type} (f : σ → L → R → Bool × σ) (st : σ) :
    Follows (retainPairedU (sure₂ f) st) m (do let (_, m) ← Repair.retainPaired m f st; return ((), m)) :=
  PartialMap.retainPairedU_follows (fun s l r => (!(f s l r).1, (f s l r).2)) st

theorem retainUnpairedU_follows {σ : Type} (f : σ → OptionalPair L R → Bool × σ) (st : σ) :
    Follows (retainUnpairedU (sure f) st) m (do let (_, m) ← Repair.retainUnpaired m f st; return ((), m)) :=
  PartialMap.retainUnpairedU_follows (fun s o => (!(f s o).1, (f s o).2)) st

theorem retainU_follows {σ : Type} (f : σ → OptionalPair L R → Bool × σ) (st : σ) :
    Follows (retainU (sure f) st) m (do let (_, m) ← Repair.retain m f st; return ((), m)) := by
  refine .get ?_
  have h := retainPairedU_follows (m := m) (onPairs f) st
  have e : calm₂ (onPairs (sure f)) = onPairs f := rfl
  simp only [Repair.retain, e]
  rw [show (fun s l r => f s (someBoth l r)) = onPairs f from rfl]
  cases e1 : Repair.retainPaired m (onPairs f) st with
  | error p =>
    rw [e1] at h
    exact Follows.bind (r' := fun _ => .error p) h (fun _ _ h => by cases h)
  | ok x =>
    obtain ⟨st', m1⟩ := x
    rw [e1] at h
    refine Follows.bind (r' := fun _ => (do let (_, m) ← Repair.retainUnpaired m1 f st'; return ((), m))) h ?_
    rintro _ _ ⟨⟩
    exact retainUnpairedU_follows f st'

theorem extendPairsU_follows (xs : List (L × R)) : Follows (extendPairsU xs) m (do return ((), ← m.extendPairs xs)) := by
  induction xs generalizing m with
  | nil => exact user_follows
  | cons x xs ih =>
    refine .user ?_
    have := Follows.bind (g := fun _ => extendPairsU xs) (insertU_follows (m := m) x.1 x.2)
      (r' := fun x => do return ((), ← x.2.extendPairs xs)) (fun a m' _ => ih)
    simp only [extendPairs, bind, Except.bind, pure, Except.pure] at this ⊢
    cases h : m.insert x.1 x.2 <;> rw [h] at this <;> exact this

theorem extendU_follows (xs : List (OptionalPair L R)) : Follows (extendU xs) m (do return ((), ← m.extend xs)) := by
  induction xs generalizing m with
  | nil => exact user_follows
  | cons x xs ih =>
    cases x with
    | neither => exact .user ih
    | someLeft l =>
      refine .user ?_
      have := Follows.bind (g := fun _ => extendU xs) (insertLeftU_follows (m := m) l)
        (r' := fun x => do return ((), ← x.2.extend xs)) (fun a m' _ => ih)
      simp only [extend, bind, Except.bind, pure, Except.pure] at this ⊢
      cases h : m.insertLeft l <;> rw [h] at this <;> exact this
    | someRight r =>
      refine .user ?_
      have := Follows.bind (g := fun _ => extendU xs) (insertRightU_follows (m := m) r)
        (r' := fun x => do return ((), ← x.2.extend xs)) (fun a m' _ => ih)
      simp only [extend, bind, Except.bind, pure, Except.pure] at this ⊢
      cases h : m.insertRight r <;> rw [h] at this <;> exact this
    | someBoth l r =>
      refine .user ?_
      have := Follows.bind (g := fun _ => extendU xs) (insertU_follows (m := m) l r)
        (r' := fun x => do return ((), ← x.2.extend xs)) (fun a m' _ => ih)
      simp only [extend, bind, Except.bind, pure, Except.pure] at this ⊢
      cases h : m.insert l r <;> rw [h] at this <;> exact this

theorem execU_follows (op : Op L R) : Follows (execU op) m (Repair.exec m op) := by
  have plain := PartialMap.execU_follows (m := m) op
  have quiet := quietU_follows (m := m) (fun m => m.exec op)
  have quiet2 := quietU_follows (m := m) (fun m => Repair.exec m op)
  cases op
  case insert l r => exact follows_map (insertU_follows l r)
  case insertLeft l => exact follows_map (insertLeftU_follows l)
  case insertRight r => exact follows_map (insertRightU_follows r)
  case unpair l r => exact follows_map (r := .ok _) (unpairU_follows l r)
  case swapLeft a b => exact follows_map (swapLeftU_follows a b)
  case swapLeftChecked a e b => exact follows_map (swapLeftCheckedU_follows a e b)
  case swapLeftOrInsert a b r => exact follows_map (swapLeftOrInsertU_follows a b r)
  case swapRight a b => exact follows_map (swapRightU_follows a b)
  case swapRightChecked a e b => exact follows_map (swapRightCheckedU_follows a e b)
  case swapRightOrInsert a b l => exact follows_map (swapRightOrInsertU_follows a b l)
  case iter => exact follows_map (r := .ok _) (g := Out.entries) iterU_follows
  case retain σ f s => exact follows_res' (retainU_follows f s)
  case retainPaired σ f s => exact follows_res' (retainPairedU_follows f s)
  case retainUnpaired σ f s => exact follows_res' (retainUnpairedU_follows f s)
  case extendPairs xs => exact follows_res (extendPairsU_follows xs)
  case extend xs => exact follows_res (extendU_follows xs)
  all_goals first
    | exact plain
    | exact quiet
    | exact quiet2

end
end Verif.PartialMap.Sturdy
