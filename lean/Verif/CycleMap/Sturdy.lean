import Verif.CycleMap.UnwindValid
import Verif.CycleMap.UnwindClosures
/-
A repair of `CycleMap` (not in /repo): the calls of `Verif.CycleMap.Unwind`, that is `/repo/src/cycle_map.rs` with panics
that unwind, changed in two ways.

* Every entry stores its own hash next to its partner's, and the closure handed to the tables for moving their elements
  reads it instead of running `Hash`.  A table that grows then runs no code of the items.  (The stored hash is the one
  `Hash` would give, C85, so what the table does is as before.)
* `swap_left` and `swap_right` take the old entry out before they write to its partner, instead of after; and
  `swap_right` hashes the new item once.

Everything else is as it is.
-/
set_option linter.unusedSectionVars false
set_option linter.unusedSimpArgs false
namespace Verif.CycleMap.Sturdy
open CycleSpec OptionalPair Unw

section
variable [RawImpl] {L R : Type} [BEq L] [BEq R]

/-- `insert` — 155-183; the tables grow without running `Hash` -/
def insertU (left : L) (right : R) : Unw (CycleMap L R) (InsertOptional L R) := do
  let optFromLeft ← removeViaLeftU left
  let optFromRight ← removeViaRightU right
  let digest := ofPair (optFromLeft, optFromRight)
  user
  user
  let m ← get
  let lHash := m.hb.hl left
  let rHash := m.hb.hr right
  let leftPairing : MappingPair L := { value := left, hash := rHash, id := m.counter }
  let rightPairing : MappingPair R := { value := right, hash := lHash, id := m.counter }
  let m := { m with counter := m.counter + 1 }
  set { m with left := m.left.insert lHash leftPairing (·.hashWith m.hb.hl) }
  let m ← get
  set { m with right := m.right.insert rHash rightPairing (·.hashWith m.hb.hr) }
  return digest

/-- `swap_left` — 350-389, with line 368 (the write to the partner) after lines 376-380 (the old entry is taken out) -/
def swapLeftU (old new : L) : Unw (CycleMap L R) (OptionalPair L (L × R)) := do
  user
  let m ← get
  let newLHash := m.hb.hl new
  let eqOpt ← swapLeftEqCheckU old new newLHash
  user
  user
  let m ← get
  let oldLHash := m.hb.hl old
  match m.left.get oldLHash (equivalentKey old) with
  | none => return neither
  | some lp =>
    match m.right.getMut lp.hash (hashAndId oldLHash lp.id) with
    | none => fail .unwrapNone
    | some (rp, writeRight) =>
      let newLeftPairing : MappingPair L := { value := new, hash := lp.hash, id := lp.id }
      user
      match m.left.removeEntry oldLHash (equivalentKey old) with
      | none => fail .unwrapNone
      | some (oldLp, left') =>
        set { m with left := left' }
        let m ← get
        set { m with right := writeRight { rp with hash := newLHash } }
        let m ← get
        set { m with left := m.left.insert newLHash newLeftPairing (·.hashWith m.hb.hl) }
        return ofPair (some oldLp.value, eqOpt)

/-- `swap_left_checked` — 414-420 -/
def swapLeftCheckedU (old : L) (expected : R) (new : L) : Unw (CycleMap L R) (OptionalPair L (L × R)) := do
  if !(← arePairedU old expected) then return neither else swapLeftU old new

/-- `swap_left_or_insert` — 442-456 -/
def swapLeftOrInsertU (old new : L) (toInsert : R) : Unw (CycleMap L R) (OptionalPair L (L × R)) := do
  user
  user
  let m ← get
  if (m.left.get (m.hb.hl old) (equivalentKey old)).isSome then swapLeftU old new
  else do
    let o ← insertU new toInsert
    return o.mapLeft (fun p => p.1)

/-- `swap_right` — 500-540, changed like `swap_left` (519 after 527-531), and with the hash of 502 instead of 518 -/
def swapRightU (old new : R) : Unw (CycleMap L R) (OptionalPair R (L × R)) := do
  user
  let m ← get
  let newRHash := m.hb.hr new
  let eqOpt ← swapRightEqCheckU old new newRHash
  user
  user
  let m ← get
  let oldRHash := m.hb.hr old
  match m.right.get oldRHash (equivalentKey old) with
  | none => return neither
  | some rp =>
    match m.left.getMut rp.hash (hashAndId oldRHash rp.id) with
    | none => fail .unwrapNone
    | some (lp, writeLeft) =>
      let newRightPairing : MappingPair R := { value := new, hash := rp.hash, id := rp.id }
      user
      match m.right.removeEntry oldRHash (equivalentKey old) with
      | none => fail .unwrapNone
      | some (oldRp, right') =>
        set { m with right := right' }
        let m ← get
        set { m with left := writeLeft { lp with hash := newRHash } }
        let m ← get
        set { m with right := m.right.insert newRHash newRightPairing (·.hashWith m.hb.hr) }
        return ofPair (some oldRp.value, eqOpt)

/-- `swap_right_checked` — 565-571 -/
def swapRightCheckedU (old : R) (expected : L) (new : R) : Unw (CycleMap L R) (OptionalPair R (L × R)) := do
  if !(← arePairedU expected old) then return neither else swapRightU old new

/-- `swap_right_or_insert` — 595-619 -/
def swapRightOrInsertU (old new : R) (toInsert : L) : Unw (CycleMap L R) (OptionalPair R (L × R)) := do
  user
  user
  let m ← get
  if (m.right.get (m.hb.hr old) (equivalentKey old)).isSome then swapRightU old new
  else do
    match ← insertU toInsert new with
    | neither => return neither
    | someRight pair => return someRight pair
    | _ => fail .unreachable

/-- `extend` — 1165-1169 -/
def extendU : List (L × R) → Unw (CycleMap L R) Unit
  | [] => user
  | (l, r) :: rest => do
    user
    let _ ← insertU l r
    extendU rest

/-- Running a call of the repaired map.  `reserve`, `try_reserve`, `shrink_to`, `shrink_to_fit` (900-966) run no code of the
items. -/
def execU : Op L R → Unw (CycleMap L R) (Out L R)
  | .insert l r => do return .inserted (← insertU l r)
  | .swapLeft old new => do return .swappedLeft (← swapLeftU old new)
  | .swapLeftChecked old e new => do return .swappedLeft (← swapLeftCheckedU old e new)
  | .swapLeftOrInsert old new r => do return .swappedLeft (← swapLeftOrInsertU old new r)
  | .swapRight old new => do return .swappedRight (← swapRightU old new)
  | .swapRightChecked old e new => do return .swappedRight (← swapRightCheckedU old e new)
  | .swapRightOrInsert old new l => do return .swappedRight (← swapRightOrInsertU old new l)
  | .extend xs => do extendU xs; return .unit
  | .reserve n => do set ((← get).reserve n); return .unit
  | .tryReserve n a b => do
    let m ← get
    set (m.tryReserve n a b).2
    return .bool (m.tryReserve n a b).1
  | .shrinkTo n => do set ((← get).shrinkTo n); return .unit
  | .shrinkToFit => do set (← get).shrinkToFit; return .unit
  | op => CycleMap.execU op

/-- Running a call of the repaired map whose closure may panic. -/
def callU : Call L R → Unw (CycleMap L R) (Out L R)
  | .plain op => execU op
  | call => CycleMap.callU call

/-! ### Uninterrupted, the repaired calls are those of the crate -/
variable {m : CycleMap L R}

theorem insertU_follows (l : L) (r : R) : Follows (insertU l r) m (m.insert l r) := by
  refine (removeViaLeftU_follows l).bind fun a m1 _ => ?_
  refine (removeViaRightU_follows r).bind fun b m2 _ => ?_
  exact .user <| .user <| .get <| .set <| .get <| .set .pure

theorem swapLeftU_follows (a b : L) : Follows (swapLeftU a b) m (m.swapLeft a b) := by
  refine .user <| .get <| (swapLeftEqCheckU_follows a b _).bind fun o m1 _ => ?_
  refine .user <| .user <| .get ?_
  simp only
  cases m1.left.get (m1.hb.hl a) (equivalentKey a) with
  | none => exact .pure
  | some x =>
    simp only
    cases m1.right.getMut x.hash (hashAndId (m1.hb.hl a) x.id) with
    | none => exact .fail
    | some y =>
      refine .user ?_
      simp only
      cases m1.left.removeEntry (m1.hb.hl a) (equivalentKey a) with
      | none => exact .fail
      | some z => exact .set <| .get <| .set <| .get <| .set .pure

theorem swapRightU_follows (a b : R) : Follows (swapRightU a b) m (m.swapRight a b) := by
  have hb : ∀ o m1, m.swapRightEqCheck a b (m.hb.hr b) = .ok (o, m1) → m1.hb = m.hb := by
    intro o m1 e
    unfold swapRightEqCheck at e
    split at e
    · cases e; rfl
    · split at e
      · simp only [removeViaRight] at e
        split at e
        · cases e; rfl
        · split at e
          · cases e
          · cases e; rfl
      · cases e; rfl
  refine .user <| .get <| (swapRightEqCheckU_follows a b _).bind fun o m1 e => ?_
  have hb := hb o m1 e
  refine .user <| .user <| .get ?_
  simp only
  cases m1.right.get (m1.hb.hr a) (equivalentKey a) with
  | none => exact .pure
  | some x =>
    simp only
    cases m1.left.getMut x.hash (hashAndId (m1.hb.hr a) x.id) with
    | none => exact .fail
    | some y =>
      refine .user ?_
      simp only
      cases m1.right.removeEntry (m1.hb.hr a) (equivalentKey a) with
      | none => exact .fail
      | some z => rw [hb]; exact .set <| .get <| .set <| .get <| .set .pure

theorem swapLeftCheckedU_follows (a : L) (e : R) (b : L) :
    Follows (swapLeftCheckedU a e b) m (m.swapLeftChecked a e b) := by
  refine arePairedU_bind ?_
  simp only [swapLeftChecked]
  split
  · exact .pure
  · exact swapLeftU_follows a b

theorem swapRightCheckedU_follows (a : R) (e : L) (b : R) :
    Follows (swapRightCheckedU a e b) m (m.swapRightChecked a e b) := by
  refine arePairedU_bind ?_
  simp only [swapRightChecked]
  split
  · exact .pure
  · exact swapRightU_follows a b

theorem swapLeftOrInsertU_follows (a b : L) (r : R) :
    Follows (swapLeftOrInsertU a b r) m (m.swapLeftOrInsert a b r) := by
  refine .user <| .user <| .get ?_
  simp only [swapLeftOrInsert]
  split
  · exact swapLeftU_follows a b
  · exact follows_map (insertU_follows b r)

theorem swapRightOrInsertU_follows (a b : R) (l : L) :
    Follows (swapRightOrInsertU a b l) m (m.swapRightOrInsert a b l) := by
  refine .user <| .user <| .get ?_
  simp only [swapRightOrInsert]
  split
  · exact swapRightU_follows a b
  · refine (insertU_follows l b).bind fun o m' _ => ?_
    cases o
    · exact .pure
    · exact .fail
    · exact .pure
    · exact .fail

theorem extendU_follows (xs : List (L × R)) : Follows (extendU xs) m (do return ((), ← m.extend xs)) := by
  induction xs generalizing m with
  | nil => exact CycleMap.extendU_follows (m := m) []
  | cons x xs ih =>
    refine .user ?_
    have := Follows.bind (g := fun _ => extendU xs) (insertU_follows (m := m) x.1 x.2)
      (r' := fun x => do return ((), ← x.2.extend xs)) (fun a m' _ => ih)
    simp only [extend, bind, Except.bind, pure, Except.pure] at this ⊢
    cases h : m.insert x.1 x.2 <;> rw [h] at this <;> exact this

theorem execU_follows (op : Op L R) : Follows (execU op) m (m.exec op) := by
  have unchanged := CycleMap.execU_follows (m := m) op
  cases op
  case insert l r => exact follows_map (insertU_follows l r)
  case swapLeft a b => exact follows_map (swapLeftU_follows a b)
  case swapLeftChecked a e b => exact follows_map (swapLeftCheckedU_follows a e b)
  case swapLeftOrInsert a b r => exact follows_map (swapLeftOrInsertU_follows a b r)
  case swapRight a b => exact follows_map (swapRightU_follows a b)
  case swapRightChecked a e b => exact follows_map (swapRightCheckedU_follows a e b)
  case swapRightOrInsert a b l => exact follows_map (swapRightOrInsertU_follows a b l)
  case extend xs =>
    have := Follows.bind (g := fun _ => (pure .unit : Unw (CycleMap L R) (Out L R))) (extendU_follows (m := m) xs)
      (r' := fun x => .ok (.unit, x.2)) (fun a m' _ => .pure)
    simp only [exec, execU, bind, Except.bind, pure, Except.pure] at this ⊢
    cases h : m.extend xs <;> rw [h] at this <;> exact this
  case reserve n => exact .get <| .set .pure
  case tryReserve n a b => exact .get <| .set .pure
  case shrinkTo n => exact .get <| .set .pure
  case shrinkToFit => exact .get <| .set .pure
  all_goals exact unchanged

/-! ### Interrupted, they leave a valid map -/

/-- the pairs `d` an interrupted call may leave, of the pairs `c`: all of them, or all but those of items that were to
be put in -/
def Leaves (c : List (L × R)) : Op L R → List (L × R) → Prop
  | .insert l r, d => LeavesInsert c l r d
  | .swapLeft _ new, d | .swapLeftChecked _ _ new, d => d = c ∨ d = eraseL c new
  | .swapRight _ new, d | .swapRightChecked _ _ new, d => d = c ∨ d = eraseR c new
  | .swapLeftOrInsert _ new r, d => LeavesInsert c new r d
  | .swapRightOrInsert _ new l, d => LeavesInsert c l new d ∨ d = eraseR c new
  | .extend xs, d => d = insertAll c xs ∨ ∃ ys x zs, xs = ys ++ x :: zs ∧ LeavesInsert (insertAll c ys) x.1 x.2 d
  | _, d => d = c

section
variable [LawfulRaw] [EquivBEq L] [EquivBEq R] {c : List (L × R)} {S : Option (List Bool) → Prop}

theorem insertU_leaves (h : Repr m c) (l : L) (r : R) :
    Ends (insertU l r) m (fun _ _ => True) (Stops fun m' => ∃ d, LeavesInsert c l r d ∧ Repr m' d) S := by
  refine (((removeViaLeftU_follows l).ends (removeViaLeftU_same l)).mono (fun _ _ h => h)
    (I' := Stops fun m' => ∃ d, LeavesInsert c l r d ∧ Repr m' d) ?_).bind ?_
  · intro w m' e hw; rw [e hw]; exact ⟨c, .inl rfl, h⟩
  rintro o1 m1 ⟨e1, -⟩
  obtain ⟨m1', e1', h1, -⟩ := removeViaLeft_refines h l
  rw [e1'] at e1; cases e1
  refine (((removeViaRightU_follows r).ends (removeViaRightU_same r)).mono (fun _ _ h => h)
    (I' := Stops fun m' => ∃ d, LeavesInsert c l r d ∧ Repr m' d) ?_).bind ?_
  · intro w m' e hw; rw [e hw]; exact ⟨_, .inr (.inl rfl), h1⟩
  rintro o2 m2 ⟨e2, -⟩
  obtain ⟨m2', e2', h2, -⟩ := removeViaRight_refines h1 r
  rw [e2'] at e2; cases e2
  have i : Stops (fun m' => ∃ d, LeavesInsert c l r d ∧ Repr m' d) none m2 := fun _ => ⟨_, .inr (.inr rfl), h2⟩
  exact .user_bind i <| .user_bind i <| .get_bind <| .set_bind <| .get_bind <| .set_bind <| .pure trivial

theorem swapLeftU_leaves (h : Repr m c) (a b : L) :
    Ends (swapLeftU a b) m (fun _ _ => True) (Stops fun m' => ∃ d, (d = c ∨ d = eraseL c b) ∧ Repr m' d) S := by
  have i : Stops (fun m' => ∃ d, (d = c ∨ d = eraseL c b) ∧ Repr m' d) none m := fun _ => ⟨c, .inl rfl, h⟩
  refine .user_bind i <| .get_bind <| Ends.bind (K := fun o m' => m.swapLeftEqCheck a b (m.hb.hl b) = .ok (o, m') ∧ True)
    ((swapLeftEqCheckU_follows a b _).ends <| .user_bind i <| .get_bind ?_) ?_
  · cases m.left.get (m.hb.hl b) (equivalentKey b) with
    | none => exact .pure trivial
    | some x =>
      refine .user_bind i ?_
      split
      · refine (removeViaLeftU_same b).mono (fun _ _ h => h) ?_
        intro w m' e hw; rw [e hw]; exact ⟨c, .inl rfl, h⟩
      · exact .pure trivial
  · rintro o1 m1 ⟨e1, -⟩
    obtain ⟨m1', e1', h1, -⟩ := swapLeftEqCheck_refines h a b
    rw [e1'] at e1; cases e1
    have i1 : Stops (fun m' => ∃ d, (d = c ∨ d = eraseL c b) ∧ Repr m' d) none m1 :=
      fun _ => ⟨_, by split <;> simp, h1⟩
    refine .user_bind i1 <| .user_bind i1 <| .get_bind ?_
    simp only
    split
    · exact .pure trivial
    · split
      · exact .fail .fail
      · refine .user_bind i1 ?_
        split
        · exact .fail .fail
        · exact .set_bind <| .get_bind <| .set_bind <| .get_bind <| .set_bind <| .pure trivial

theorem swapRightU_leaves (h : Repr m c) (a b : R) :
    Ends (swapRightU a b) m (fun _ _ => True) (Stops fun m' => ∃ d, (d = c ∨ d = eraseR c b) ∧ Repr m' d) S := by
  have i : Stops (fun m' => ∃ d, (d = c ∨ d = eraseR c b) ∧ Repr m' d) none m := fun _ => ⟨c, .inl rfl, h⟩
  refine .user_bind i <| .get_bind <| Ends.bind (K := fun o m' => m.swapRightEqCheck a b (m.hb.hr b) = .ok (o, m') ∧ True)
    ((swapRightEqCheckU_follows a b _).ends <| .user_bind i <| .get_bind ?_) ?_
  · cases m.right.get (m.hb.hr b) (equivalentKey b) with
    | none => exact .pure trivial
    | some x =>
      refine .user_bind i ?_
      split
      · refine (removeViaRightU_same b).mono (fun _ _ h => h) ?_
        intro w m' e hw; rw [e hw]; exact ⟨c, .inl rfl, h⟩
      · exact .pure trivial
  · rintro o1 m1 ⟨e1, -⟩
    obtain ⟨m1', e1', h1, -⟩ := swapRightEqCheck_refines h a b
    rw [e1'] at e1; cases e1
    have i1 : Stops (fun m' => ∃ d, (d = c ∨ d = eraseR c b) ∧ Repr m' d) none m1 :=
      fun _ => ⟨_, by split <;> simp, h1⟩
    refine .user_bind i1 <| .user_bind i1 <| .get_bind ?_
    simp only
    split
    · exact .pure trivial
    · split
      · exact .fail .fail
      · refine .user_bind i1 ?_
        split
        · exact .fail .fail
        · exact .set_bind <| .get_bind <| .set_bind <| .get_bind <| .set_bind <| .pure trivial

theorem extendU_leaves (h : Repr m c) (xs : List (L × R)) :
    Ends (extendU xs) m (fun _ _ => True) (Stops fun m' => ∃ d, Leaves c (.extend xs) d ∧ Repr m' d) S := by
  induction xs generalizing m c with
  | nil =>
    refine (Ends.user ?_).mono (fun _ _ _ => trivial) fun _ _ h => h
    exact fun _ => ⟨c, .inl rfl, h⟩
  | cons x xs ih =>
    refine .user_bind (fun _ => ⟨c, .inr ⟨[], x, xs, rfl, .inl rfl⟩, h⟩) ?_
    refine (((insertU_follows x.1 x.2).ends (insertU_leaves h x.1 x.2)).mono
      (fun _ _ h => h) (I' := Stops fun m' => ∃ d, Leaves c (.extend (x :: xs)) d ∧ Repr m' d) ?_).bind ?_
    · intro w m' e hw
      obtain ⟨d, h1, h2⟩ := e hw
      exact ⟨d, .inr ⟨[], x, xs, rfl, h1⟩, h2⟩
    · rintro o m1 ⟨e, -⟩
      obtain ⟨m1', e', h1, -⟩ := insert_refines h x.1 x.2
      rw [e'] at e; cases e
      refine (ih h1).mono (fun _ _ h => h) ?_
      intro w m' e hw
      obtain ⟨d, h2, h3⟩ := e hw
      refine ⟨d, ?_, h3⟩
      rcases h2 with rfl | ⟨ys, y, zs, rfl, h2⟩
      · exact .inl rfl
      · exact .inr ⟨x :: ys, y, zs, rfl, h2⟩

theorem checked {α : Type} {l : L} {r : R} {x : Unw (CycleMap L R) α} {y : α} {P : CycleMap L R → Prop} (i : P m)
    (h : Ends x m (fun _ _ => True) (Stops P) S) :
    Ends (do if !(← arePairedU l r) then return y else x) m (fun _ _ => True) (Stops P) S := by
  refine (((arePairedU_follows l r).ends (arePairedU_same l r)).mono (fun _ _ h => h) (I' := Stops P) ?_).bind ?_
  · intro w m' e hw; rw [e hw]; exact i
  · rintro _ m' ⟨⟨⟩, -⟩
    split
    · exact .pure trivial
    · exact h

/-- a repaired call interrupted by the items' own code leaves a valid map -/
theorem execU_leaves (h : Repr m c) (op : Op L R) :
    Ends (execU op) m (fun _ _ => True) (Stops fun m' => ∃ d, Leaves c op d ∧ Repr m' d) S := by
  have i : Stops (fun m' => ∃ d, d = c ∧ Repr m' d) none m := fun _ => ⟨_, rfl, h⟩
  have same : ∀ {α : Type} {x : Unw (CycleMap L R) α}, Same x m S →
      Ends x m (fun _ _ => True) (Stops fun m' => ∃ d, d = c ∧ Repr m' d) S :=
    fun hx => hx.mono (fun _ _ h => h) fun w m' e hw => by rw [e hw]; exact ⟨_, rfl, h⟩
  have stops_map : ∀ {β γ : Type} {x : Unw (CycleMap L R) β} {g : β → γ} {P : CycleMap L R → Prop},
      Ends x m (fun _ _ => True) (Stops P) S → Ends (do return g (← x)) m (fun _ _ => True) (Stops P) S := fun h => Same.map h
  cases op
  case insert l r => exact stops_map (insertU_leaves h l r)
  case remove l r => exact stops_map (same (removeU_same l r))
  case removeViaLeft l => exact stops_map (same (removeViaLeftU_same l))
  case removeViaRight r => exact stops_map (same (removeViaRightU_same r))
  case swapLeft a b => exact stops_map (swapLeftU_leaves h a b)
  case swapRight a b => exact stops_map (swapRightU_leaves h a b)
  case swapLeftChecked a e b => exact stops_map (checked ⟨c, .inl rfl, h⟩ (swapLeftU_leaves h a b))
  case swapRightChecked a e b => exact stops_map (checked ⟨c, .inl rfl, h⟩ (swapRightU_leaves h a b))
  case swapLeftOrInsert a b r =>
    have j : Stops (fun m' => ∃ d, LeavesInsert c b r d ∧ Repr m' d) none m := fun _ => ⟨_, .inl rfl, h⟩
    refine stops_map <| .user_bind j <| .user_bind j <| .get_bind ?_
    split
    · refine (swapLeftU_leaves h a b).mono (fun _ _ h => h) fun w m' e hw => ?_
      obtain ⟨d, h1, h2⟩ := e hw
      exact ⟨d, h1.elim .inl fun h => .inr (.inl h), h2⟩
    · exact stops_map (insertU_leaves h b r)
  case swapRightOrInsert a b l =>
    have j : Stops (fun m' => ∃ d, (LeavesInsert c l b d ∨ d = eraseR c b) ∧ Repr m' d) none m := fun _ => ⟨_, .inl (.inl rfl), h⟩
    refine stops_map <| .user_bind j <| .user_bind j <| .get_bind ?_
    split
    · refine (swapRightU_leaves h a b).mono (fun _ _ h => h) fun w m' e hw => ?_
      obtain ⟨d, h1, h2⟩ := e hw
      exact ⟨d, h1.elim (fun h => .inl (.inl h)) .inr, h2⟩
    · refine ((insertU_leaves h l b).mono (fun _ _ h => h) fun w m' e hw => ?_).bind fun o m' _ => ?_
      · obtain ⟨d, h1, h2⟩ := e hw
        exact ⟨d, .inl h1, h2⟩
      cases o
      · exact .pure trivial
      · exact .fail .fail
      · exact .pure trivial
      · exact .fail .fail
  case getLeft => exact .user_bind i <| .user_bind i <| .get_bind <| .pure trivial
  case getRight => exact .user_bind i <| .user_bind i <| .get_bind <| .pure trivial
  case containsLeft => exact .user_bind i <| .user_bind i <| .get_bind <| .pure trivial
  case containsRight => exact .user_bind i <| .user_bind i <| .get_bind <| .pure trivial
  case arePaired l r => exact stops_map (same (arePairedU_same l r))
  case len => exact .get_bind <| .pure trivial
  case isEmpty => exact .get_bind <| .pure trivial
  case clear => exact .get_bind <| .set_bind <| .pure trivial
  case iter => exact .get_bind <| stops_map <| same <| (collectU_same _).mono (fun _ _ _ => trivial) fun _ _ h => h
  case iterLeft => exact .get_bind <| .pure trivial
  case iterRight => exact .get_bind <| .pure trivial
  case drain n => exact stops_map (drainU_stops n)
  case drainFilter σ f s n => exact stops_map (drainFilterU_stops f s n)
  case drainFilterAll σ f s => exact .get_bind <| stops_map (drainFilterU_stops f s _)
  case retain σ f s => exact (same (retainU_same (sure f) s)).bind fun _ _ _ => .pure trivial
  case extend xs => exact (extendU_leaves h xs).bind fun _ _ _ => .pure trivial
  case reserve n => exact .get_bind <| .set_bind <| .pure trivial
  case tryReserve n a b => exact .get_bind <| .set_bind <| .pure trivial
  case shrinkTo n => exact .get_bind <| .set_bind <| .pure trivial
  case shrinkToFit => exact .get_bind <| .set_bind <| .pure trivial
  case clone => exact .user_bind i <| .get_bind <| .set_bind <| .pure trivial

/-- the crate's own panic (`unreachable!` in `swap_right_or_insert`) leaves the map with the pair inserted -/
theorem swapRightOrInsertU_own (h : Repr m c) {old new : R} {l : L}
    (hs : ¬ ((findR c old).isSome ∨ findL c l = none)) :
    Ends (execU (.swapRightOrInsert old new l)) m (fun _ _ => True)
      (fun w m' => w = some .unreachable → Repr m' (CycleSpec.insert c l new).2) := by
  refine Unw.Ends.bind (K := fun _ _ => True) (.user_bind (by simp) <| .user_bind (by simp) <| .get_bind ?_) fun _ _ _ => .pure trivial
  have ho : (m.right.get (m.hb.hr old) (equivalentKey old)).isSome = false := by
    rw [findR_isSome h]; simpa using fun h => hs (.inl h)
  rw [if_neg (by rw [ho]; simp)]
  have e0 : ∃ m', m.insert l new = .ok ((CycleSpec.insert c l new).1, m') ∧ Repr m' (CycleSpec.insert c l new).2 := by
    obtain ⟨m', e, h', -⟩ := insert_refines h l new
    exact ⟨m', e, h'⟩
  obtain ⟨m2, e4, h4⟩ := e0
  refine Unw.Ends.bind (K := fun o m' => m.insert l new = .ok (o, m')) ?_ ?_
  · intro f _
    have h1 := (insertU_follows (m := m) l new).agrees f
    have h2 := (insertU_leaves (S := fun _ => True) h l new) f trivial
    rw [e4] at h1
    cases e : insertU l new f m with
    | done a f' m' => rw [e] at h1 h2; exact ⟨h2.1, e4.trans h1⟩
    | panic why m' =>
      rw [e] at h1
      cases why with
      | none => simp
      | some p => cases h1
    | abort => trivial
  · intro o m1 e3
    rw [e4] at e3; cases e3
    generalize (CycleSpec.insert c l new).1 = o
    cases o
    · exact .pure trivial
    · exact .fail fun _ => h4
    · exact .pure trivial
    · exact .fail fun _ => h4

end
end
end Verif.CycleMap.Sturdy
