import Verif.PartialMap.Sturdy
import Verif.Props.RepairMachinePartial
/-! What an interrupted call of the repaired `PartialCycleMap` (`Verif.PartialMap.Sturdy`) leaves, and what closures that panic do to it. -/
set_option linter.unusedSectionVars false
set_option linter.unusedSimpArgs false
namespace Verif.PartialMap.Sturdy
open PartialSpec OptionalPair Unw
open CycleSpec (split)

section
variable [RawImpl] {L R : Type} [BEq L] [BEq R]

/-- an interrupted `retain` has done nothing, or it has removed exactly the pairs it does not retain -/
def LeavesRetain {σ : Type} (c : List (OptionalPair L R)) (f : σ → OptionalPair L R → Option Bool × σ) (s : σ)
    (d : List (OptionalPair L R)) : Prop :=
  d = c ∨ ∃ o : List (L × R), o.Perm (c.filterMap pairOf) ∧
    d = (split (fun s p => calm f s (someBoth p.1 p.2)) o s).1.map (fun p => someBoth p.1 p.2) ++ c.filter fun e => !isPair e

/-- the entries `d` an interrupted call of the repaired map may leave, of the entries `c` -/
def Leaves (c : List (OptionalPair L R)) : Op L R → List (OptionalPair L R) → Prop
  | .insert l r, d => LeavesInsert c l r d
  | .insertLeft l, d => d = c ∨ d = eraseL c l
  | .insertRight r, d => d = c ∨ d = eraseR c r
  | .swapLeft _ new, d => d = c ∨ d = eraseL c new
  | .swapLeftChecked _ _ new, d => d = c ∨ d = eraseL c new
  | .swapRight _ new, d => d = c ∨ d = eraseR c new
  | .swapRightChecked _ _ new, d => d = c ∨ d = eraseR c new
  | .swapLeftOrInsert _ new r, d => LeavesInsert c new r d
  | .swapRightOrInsert _ new l, d => LeavesInsert c l new d ∨ d = eraseR c new
  | .extendPairs xs, d => LeavesExtend c (xs.map fun p => someBoth p.1 p.2) d
  | .extend xs, d => LeavesExtend c xs d
  | .retain _ f s, d => LeavesRetain c (sure f) s d
  | _, d => d = c

variable {m m' : PartialMap L R} {c : List (OptionalPair L R)} {S : Option (List Bool) → Prop}

/-- code without user code: `set`, `match` and failing `unwrap`s -/
local macro "calm" : tactic => `(tactic| repeat' first
  | exact .pure trivial | exact .fail .fail | refine .set_bind ?_ | split | refine .get_bind ?_)

theorem users_same (n : Nat) : Ends (users n) m (fun _ m' => m' = m) (Stops (· = m)) S := by
  induction n with
  | zero => exact .pure rfl
  | succ n ih => exact .user_bind (fun _ => rfl) ih

theorem quietU_stops {α : Type} {P : PartialMap L R → Prop} (r : PartialMap L R → Res (α × PartialMap L R)) :
    Ends (quietU r) m (fun _ _ => True) (Stops P) S := by
  refine .get_bind ?_
  calm

theorem unpairU_same (l : L) (r : R) : Same (unpairU l r) m S := by
  refine ((arePairedU_follows l r).ends (arePairedU_same l r)).bind ?_
  rintro a m' ⟨⟨⟩, -⟩
  split
  · exact .pure trivial
  · exact PartialMap.unpairU_same l r

theorem iterU_same : Same (iterU : Unw (PartialMap L R) _) m S :=
  .get_bind <| (users_same _).bind fun _ _ _ => .pure trivial

section
variable [LawfulRaw] [EquivBEq L] [EquivBEq R]

theorem insertU_leaves (h : Repr m c) (l : L) (r : R) :
    Ends (insertU l r) m (fun _ _ => True) (Stops fun m' => ∃ d, LeavesInsert c l r d ∧ Repr m' d) S := by
  refine (((removeViaLeftU_follows l).ends (removeViaLeftU_same l)).mono (fun _ _ h => h)
    (I' := Stops fun m' => ∃ d, LeavesInsert c l r d ∧ Repr m' d) ?_).bind ?_
  · intro w m' e hw; rw [e hw]; exact ⟨c, .inl rfl, h⟩
  rintro o1 m1 ⟨e1, -⟩
  obtain ⟨m1', e1', h1, -⟩ := removeViaLeft_refines h l
  rw [e1'] at e1; cases e1
  refine (((removeViaRightU_follows r).ends (removeViaRightU_same r)).mono (fun _ _ h => h)
    (I' := Stops fun m' => ∃ d, LeavesInsert c l r d ∧ Repr m' d) ?_).bind ?_
  · intro w m' e hw; rw [e hw]; exact ⟨_, .inr (.inl rfl), h1⟩
  rintro o2 m2 ⟨e2, -⟩
  obtain ⟨m2', e2', h2, -⟩ := removeViaRight_refines h1 r
  rw [e2'] at e2; cases e2
  have i : Stops (fun m' => ∃ d, LeavesInsert c l r d ∧ Repr m' d) none m2 := fun _ => ⟨_, .inr (.inr rfl), h2⟩
  exact .user_bind i <| .user_bind i <| .get_bind <| .set_bind <| .get_bind <| .set_bind <| .pure trivial

theorem insertLeftU_leaves (h : Repr m c) (x : L) :
    Ends (insertLeftU x) m (fun _ _ => True) (Stops fun m' => ∃ d, (d = c ∨ d = eraseL c x) ∧ Repr m' d) S := by
  refine (((removeViaLeftU_follows x).ends (removeViaLeftU_same x)).mono (fun _ _ h => h)
    (I' := Stops fun m' => ∃ d, (d = c ∨ d = eraseL c x) ∧ Repr m' d) ?_).bind ?_
  · intro w m' e hw; rw [e hw]; exact ⟨c, .inl rfl, h⟩
  rintro o1 m1 ⟨e1, -⟩
  obtain ⟨m1', e1', h1, -⟩ := removeViaLeft_refines h x
  rw [e1'] at e1; cases e1
  have i : Stops (fun m' => ∃ d, (d = c ∨ d = eraseL c x) ∧ Repr m' d) none m1 := fun _ => ⟨_, .inr rfl, h1⟩
  exact .user_bind i <| .get_bind <| .set_bind <| .pure trivial

theorem swapLeftCoreU_leaves (h : Repr m c) (a b : L) :
    Ends (swapLeftCoreU a b) m (fun _ _ => True) (Stops fun m' => ∃ d, (d = c ∨ d = eraseL c b) ∧ Repr m' d) S := by
  have i : Stops (fun m' => ∃ d, (d = c ∨ d = eraseL c b) ∧ Repr m' d) none m := fun _ => ⟨c, .inl rfl, h⟩
  refine .user_bind i <| .get_bind <| Ends.bind (K := fun o m' => m.swapLeftEqCheck a b (m.hb.hl b) = .ok (o, m') ∧ True)
    ((swapLeftEqCheckU_follows a b _).ends <| .user_bind i <| .get_bind ?_) ?_
  · cases m.left.get (m.hb.hl b) (equivalentKey b) with
    | none => exact .pure trivial
    | some x =>
      refine .user_bind i ?_
      split
      · refine (removeViaLeftU_same b).mono (fun _ _ h => h) ?_
        intro w m' e hw; rw [e hw]; exact ⟨c, .inl rfl, h⟩
      · exact .pure trivial
  · rintro o1 m1 ⟨e1, -⟩
    obtain ⟨m1', e1', h1, -⟩ := swapLeftEqCheck_refines h a b
    rw [e1'] at e1; cases e1
    have i1 : Stops (fun m' => ∃ d, (d = c ∨ d = eraseL c b) ∧ Repr m' d) none m1 :=
      fun _ => ⟨_, by split <;> simp, h1⟩
    refine .user_bind i1 <| .user_bind i1 <| .get_bind ?_
    calm

theorem swapLeftU_leaves (h : Repr m c) (a b : L) :
    Ends (swapLeftU a b) m (fun _ _ => True) (Stops fun m' => ∃ d, (d = c ∨ d = eraseL c b) ∧ Repr m' d) S := by
  have i : Stops (fun m' => ∃ d, (d = c ∨ d = eraseL c b) ∧ Repr m' d) none m := fun _ => ⟨c, .inl rfl, h⟩
  refine .user_bind i <| .user_bind i <| .get_bind ?_
  split
  · exact .pure trivial
  · exact swapLeftCoreU_leaves h a b

theorem swapLeftCheckedU_leaves (h : Repr m c) (a : L) (e : R) (b : L) :
    Ends (swapLeftCheckedU a e b) m (fun _ _ => True) (Stops fun m' => ∃ d, (d = c ∨ d = eraseL c b) ∧ Repr m' d) S := by
  refine (((arePairedU_follows a e).ends (arePairedU_same a e)).mono (fun _ _ h => h)
    (I' := Stops fun m' => ∃ d, (d = c ∨ d = eraseL c b) ∧ Repr m' d) ?_).bind ?_
  · intro w m' e hw; rw [e hw]; exact ⟨c, .inl rfl, h⟩
  rintro _ m' ⟨⟨⟩, -⟩
  split
  · exact .pure trivial
  · exact swapLeftCoreU_leaves h a b

theorem insertRightU_leaves (h : Repr m c) (x : R) :
    Ends (insertRightU x) m (fun _ _ => True) (Stops fun m' => ∃ d, (d = c ∨ d = eraseR c x) ∧ Repr m' d) S := by
  refine (((removeViaRightU_follows x).ends (removeViaRightU_same x)).mono (fun _ _ h => h)
    (I' := Stops fun m' => ∃ d, (d = c ∨ d = eraseR c x) ∧ Repr m' d) ?_).bind ?_
  · intro w m' e hw; rw [e hw]; exact ⟨c, .inl rfl, h⟩
  rintro o1 m1 ⟨e1, -⟩
  obtain ⟨m1', e1', h1, -⟩ := removeViaRight_refines h x
  rw [e1'] at e1; cases e1
  have i : Stops (fun m' => ∃ d, (d = c ∨ d = eraseR c x) ∧ Repr m' d) none m1 := fun _ => ⟨_, .inr rfl, h1⟩
  exact .user_bind i <| .get_bind <| .set_bind <| .pure trivial

theorem swapRightCoreU_leaves (h : Repr m c) (a b : R) :
    Ends (swapRightCoreU a b) m (fun _ _ => True) (Stops fun m' => ∃ d, (d = c ∨ d = eraseR c b) ∧ Repr m' d) S := by
  have i : Stops (fun m' => ∃ d, (d = c ∨ d = eraseR c b) ∧ Repr m' d) none m := fun _ => ⟨c, .inl rfl, h⟩
  refine .user_bind i <| .get_bind <| Ends.bind (K := fun o m' => m.swapRightEqCheck a b (m.hb.hr b) = .ok (o, m') ∧ True)
    ((swapRightEqCheckU_follows a b _).ends <| .user_bind i <| .get_bind ?_) ?_
  · cases m.right.get (m.hb.hr b) (equivalentKey b) with
    | none => exact .pure trivial
    | some x =>
      refine .user_bind i ?_
      split
      · refine (removeViaRightU_same b).mono (fun _ _ h => h) ?_
        intro w m' e hw; rw [e hw]; exact ⟨c, .inl rfl, h⟩
      · exact .pure trivial
  · rintro o1 m1 ⟨e1, -⟩
    obtain ⟨m1', e1', h1, -⟩ := swapRightEqCheck_refines h a b
    rw [e1'] at e1; cases e1
    have i1 : Stops (fun m' => ∃ d, (d = c ∨ d = eraseR c b) ∧ Repr m' d) none m1 :=
      fun _ => ⟨_, by split <;> simp, h1⟩
    refine .user_bind i1 <| .user_bind i1 <| .get_bind ?_
    calm

theorem swapRightU_leaves (h : Repr m c) (a b : R) :
    Ends (swapRightU a b) m (fun _ _ => True) (Stops fun m' => ∃ d, (d = c ∨ d = eraseR c b) ∧ Repr m' d) S := by
  have i : Stops (fun m' => ∃ d, (d = c ∨ d = eraseR c b) ∧ Repr m' d) none m := fun _ => ⟨c, .inl rfl, h⟩
  refine .user_bind i <| .user_bind i <| .get_bind ?_
  split
  · exact .pure trivial
  · exact swapRightCoreU_leaves h a b

theorem swapRightCheckedU_leaves (h : Repr m c) (a : R) (e : L) (b : R) :
    Ends (swapRightCheckedU a e b) m (fun _ _ => True) (Stops fun m' => ∃ d, (d = c ∨ d = eraseR c b) ∧ Repr m' d) S := by
  refine (((arePairedU_follows e a).ends (arePairedU_same e a)).mono (fun _ _ h => h)
    (I' := Stops fun m' => ∃ d, (d = c ∨ d = eraseR c b) ∧ Repr m' d) ?_).bind ?_
  · intro w m' e hw; rw [e hw]; exact ⟨c, .inl rfl, h⟩
  rintro _ m' ⟨⟨⟩, -⟩
  split
  · exact .pure trivial
  · exact swapRightCoreU_leaves h a b

theorem leaves_refl (x : OptionalPair L R) : LeavesEntry c x c := by
  cases x
  · exact rfl
  · exact .inl rfl
  · exact .inl rfl
  · exact .inl rfl

/-- adding one entry, with panics -/
theorem extend_step {x : OptionalPair L R} {xs : List (OptionalPair L R)} {α : Type} {y : Unw (PartialMap L R) α}
    {z : Unw (PartialMap L R) Unit} {r : Res (α × PartialMap L R)} (hf : Follows y m r)
    (hy : Ends y m (fun _ _ => True) (Stops fun m' => ∃ d, LeavesEntry c x d ∧ Repr m' d) S)
    (hz : ∀ o m1, r = .ok (o, m1) → Ends z m1 (fun _ _ => True)
      (Stops fun m' => ∃ d, LeavesExtend (insertEntry c x) xs d ∧ Repr m' d) S) :
    Ends (do let _ ← y; z) m (fun _ _ => True) (Stops fun m' => ∃ d, LeavesExtend c (x :: xs) d ∧ Repr m' d) S := by
  refine ((hf.ends hy).mono (fun _ _ h => h)
    (I' := Stops fun m' => ∃ d, LeavesExtend c (x :: xs) d ∧ Repr m' d) ?_).bind ?_
  · intro w m' e hw
    obtain ⟨d, h1, h2⟩ := e hw
    exact ⟨d, .inr ⟨[], x, xs, rfl, h1⟩, h2⟩
  · rintro o m1 ⟨e, -⟩
    refine (hz o m1 e).mono (fun _ _ h => h) ?_
    intro w m' e hw
    obtain ⟨d, h2, h3⟩ := e hw
    refine ⟨d, ?_, h3⟩
    rcases h2 with rfl | ⟨ys, y, zs, rfl, h2⟩
    · exact .inl rfl
    · exact .inr ⟨x :: ys, y, zs, rfl, h2⟩

theorem extendPairsU_leaves (h : Repr m c) (xs : List (L × R)) :
    Ends (extendPairsU xs) m (fun _ _ => True)
      (Stops fun m' => ∃ d, LeavesExtend c (xs.map fun p => someBoth p.1 p.2) d ∧ Repr m' d) S := by
  induction xs generalizing m c with
  | nil =>
    refine (Ends.user ?_).mono (fun _ _ _ => trivial) fun _ _ h => h
    exact fun _ => ⟨c, .inl rfl, h⟩
  | cons x xs ih =>
    refine .user_bind (fun _ => ⟨c, .inr ⟨[], _, _, rfl, leaves_refl _⟩, h⟩) ?_
    refine extend_step (insertU_follows x.1 x.2) (insertU_leaves h x.1 x.2) ?_
    intro o m1 e
    obtain ⟨m1', e', h1, -⟩ := insert_refines h x.1 x.2
    rw [e'] at e; cases e
    exact ih h1

theorem extendU_leaves (h : Repr m c) (xs : List (OptionalPair L R)) :
    Ends (extendU xs) m (fun _ _ => True) (Stops fun m' => ∃ d, LeavesExtend c xs d ∧ Repr m' d) S := by
  induction xs generalizing m c with
  | nil =>
    refine (Ends.user ?_).mono (fun _ _ _ => trivial) fun _ _ h => h
    exact fun _ => ⟨c, .inl rfl, h⟩
  | cons x xs ih =>
    have i : Stops (fun m' => ∃ d, LeavesExtend c (x :: xs) d ∧ Repr m' d) none m :=
      fun _ => ⟨c, .inr ⟨[], _, _, rfl, leaves_refl _⟩, h⟩
    cases x with
    | neither =>
      refine .user_bind i ((ih h).mono (fun _ _ h => h) ?_)
      intro w m' e hw
      obtain ⟨d, h2, h3⟩ := e hw
      refine ⟨d, ?_, h3⟩
      rcases h2 with rfl | ⟨ys, y, zs, rfl, h2⟩
      · exact .inl rfl
      · exact .inr ⟨neither :: ys, y, zs, rfl, h2⟩
    | someLeft l =>
      refine .user_bind i (extend_step (insertLeftU_follows l) (insertLeftU_leaves h l) ?_)
      intro o m1 e
      obtain ⟨m1', e', h1, -⟩ := insertLeft_refines h l
      rw [e'] at e; cases e
      exact ih h1
    | someRight r =>
      refine .user_bind i (extend_step (insertRightU_follows r) (insertRightU_leaves h r) ?_)
      intro o m1 e
      obtain ⟨m1', e', h1, -⟩ := insertRight_refines h r
      rw [e'] at e; cases e
      exact ih h1
    | someBoth l r =>
      refine .user_bind i (extend_step (insertU_follows l r) (insertU_leaves h l r) ?_)
      intro o m1 e
      obtain ⟨m1', e', h1, -⟩ := insert_refines h l r
      rw [e'] at e; cases e
      exact ih h1

end

/-! ### Closures that panic -/

/-- `x` is interrupted, or does what `y` does -/
def Near {α : Type} (x y : Unw (PartialMap L R) α) (m : PartialMap L R) : Prop :=
  ∀ fate, (∃ m', x fate m = .panic none m') ∨ x fate m = y fate m

theorem Near.refl {α : Type} {x : Unw (PartialMap L R) α} : Near x x m := fun _ => .inr rfl

theorem Near.bind {α β : Type} {x y : Unw (PartialMap L R) α} {g g' : α → Unw (PartialMap L R) β} (h : Near x y m)
    (h' : ∀ a m', Near (g a) (g' a) m') : Near (x >>= g) (y >>= g') m := by
  intro fate
  rcases h fate with ⟨m', e⟩ | e
  · exact .inl ⟨m', by simp only [Bind.bind, e]⟩
  · cases e2 : y fate m with
    | done a f' m' =>
      have e3 : (x >>= g) fate m = g a f' m' := by simp only [Bind.bind, e, e2]
      have e4 : (y >>= g') fate m = g' a f' m' := by simp only [Bind.bind, e2]
      rw [e3, e4]; exact h' a m' f'
    | panic why m' => exact .inr (by simp only [Bind.bind, e, e2])
    | abort => exact .inr (by simp only [Bind.bind, e, e2])

theorem Near.user_bind {α : Type} {g g' : Unit → Unw (PartialMap L R) α} (h : Near (g ()) (g' ()) m) :
    Near (Unw.user >>= g) (Unw.user >>= g') m := by
  rintro ⟨k, s⟩
  cases k with
  | zero => exact .inl ⟨m, rfl⟩
  | succ k => exact h ⟨k, s⟩

theorem Near.get_bind {α : Type} {g g' : PartialMap L R → Unw (PartialMap L R) α} (h : Near (g m) (g' m) m) :
    Near (Unw.get >>= g) (Unw.get >>= g') m := h

theorem Near.closure {α : Type} {y : Unw (PartialMap L R) α} : Near (fun _ m => .panic none m) y m := fun _ => .inl ⟨m, rfl⟩

theorem retainPairedScanU_near {σ : Type} {f g : σ → L → R → Option Bool × σ} (hfg : ∀ s l r, (f s l r).1 = none ∨ f s l r = g s l r)
    (ls : List (MappingPair L)) (st : σ) : Near (retainPairedScanU f ls st) (retainPairedScanU g ls st) m := by
  induction ls generalizing st with
  | nil => exact .refl
  | cons l ls ih =>
    simp only [retainPairedScanU]
    cases l.hash with
    | none => exact ih st
    | some hash =>
      refine .user_bind <| .get_bind ?_
      cases m.getViaHashesAndId (m.hb.hl l.value) hash l.id with
      | error p => exact .refl
      | ok o =>
        cases o with
        | none => exact .refl
        | some x =>
          simp only
          cases e : f st x.1 x.2 with
          | mk b st' =>
            rcases hfg st x.1 x.2 with h | h
            · rw [e] at h
              cases h
              exact .closure
            · rw [e] at h
              rw [← h]
              cases b with
              | none => exact .refl
              | some b =>
                cases b
                · exact ih st'
                · refine .user_bind <| .user_bind <| .user_bind <| .user_bind ?_
                  cases m.getLeftInner x.1 with
                  | none => exact .refl
                  | some p => exact (ih st').bind fun _ _ => .refl

theorem retainUnpairedScanU_near {σ : Type} {f g : σ → OptionalPair L R → Option Bool × σ} (hfg : ∀ s o, (f s o).1 = none ∨ f s o = g s o)
    (os : List (OptionalPair L R)) (st : σ) : Near (retainUnpairedScanU f os st) (retainUnpairedScanU g os st) m := by
  induction os generalizing st with
  | nil => exact .refl
  | cons o os ih =>
    simp only [retainUnpairedScanU]
    cases e : f st o with
    | mk b st' =>
      rcases hfg st o with h | h
      · rw [e] at h
        cases h
        exact .closure
      · rw [e] at h
        rw [← h]
        cases b with
        | none => exact .refl
        | some b =>
          cases b
          · exact ih st'
          · cases o with
            | someLeft l =>
              refine .user_bind <| .user_bind <| .get_bind ?_
              cases m.left.get (m.hb.hl l) (equivalentKey l) with
              | none => exact .refl
              | some p => exact (ih st').bind fun _ _ => .refl
            | someRight r =>
              refine .user_bind <| .user_bind <| .get_bind ?_
              cases m.right.get (m.hb.hr r) (equivalentKey r) with
              | none => exact .refl
              | some p => exact (ih st').bind fun _ _ => .refl
            | neither => exact .refl
            | someBoth _ _ => exact .refl

theorem retainPairedU_near {σ : Type} (f : σ → L → R → Option Bool × σ) (st : σ) :
    Near (retainPairedU f st) (retainPairedU (sure₂ (calm₂ f)) st) m := by
  refine .get_bind <| (retainPairedScanU_near ?_ _ st).bind fun _ _ => .refl
  intro s l r
  cases e : f s l r with
  | mk b s' => cases b <;> simp [neg₂, sure₂, calm₂, e]

theorem retainUnpairedU_near {σ : Type} (f : σ → OptionalPair L R → Option Bool × σ) (st : σ) :
    Near (retainUnpairedU f st) (retainUnpairedU (sure (calm f)) st) m := by
  refine .get_bind <| (retainUnpairedScanU_near ?_ _ st).bind fun _ _ => .refl
  intro s o
  cases e : f s o with
  | mk b s' => cases b <;> simp [neg, sure, calm, e]

theorem retainU_near {σ : Type} (f : σ → OptionalPair L R → Option Bool × σ) (st : σ) :
    Near (retainU f st) (retainU (sure (calm f)) st) m := by
  refine .get_bind <| (retainPairedU_near (onPairs f) st).bind fun _ _ => ?_
  rw [show calm₂ (onPairs (sure (calm f))) = calm₂ (onPairs f) from rfl]
  cases Repair.retainPaired m (calm₂ (onPairs f)) st with
  | error p => exact .refl
  | ok x => exact retainUnpairedU_near f x.1

/-- a call whose closure panics is interrupted, or it is the call with a closure that does not -/
theorem callU_calm (call : Call L R) (fate : Fate) :
    (∃ m', callU call fate m = .panic none m') ∨ ∃ op, (∀ cl cr, call = .plain (.clone cl cr) ↔ op = .clone cl cr) ∧
      callU call fate m = execU op fate m := by
  cases call with
  | plain op => exact .inr ⟨op, by simp, rfl⟩
  | retain σ f s =>
    rcases ((retainU_near (m := m) f s).bind fun _ _ => .refl (x := pure Out.unit)) fate with h | h
    · exact .inl h
    · exact .inr ⟨.retain σ (calm f) s, by simp, h⟩
  | retainPaired σ f s =>
    rcases ((retainPairedU_near (m := m) f s).bind fun _ _ => .refl (x := pure Out.unit)) fate with h | h
    · exact .inl h
    · exact .inr ⟨.retainPaired σ (calm₂ f) s, by simp, h⟩
  | retainUnpaired σ f s =>
    rcases ((retainUnpairedU_near (m := m) f s).bind fun _ _ => .refl (x := pure Out.unit)) fate with h | h
    · exact .inl h
    · exact .inr ⟨.retainUnpaired σ (calm f) s, by simp, h⟩

/-! ### What is left -/

/-- `retain_paired` leaves the map as it was, or has done what it is to do -/
theorem retainPairedU_ends {σ : Type} (f : σ → L → R → Option Bool × σ) (st : σ) : Ends (retainPairedU f st) m
    (fun _ m1 => ∃ st', Repair.retainPaired m (calm₂ f) st = .ok (st', m1)) (Stops (· = m)) S := by
  intro fate hs
  have h0 : Same (retainPairedU f st) m S := PartialMap.retainPairedU_same (neg₂ f) st
  have h1 := h0 fate hs
  rcases retainPairedU_near (m := m) f st fate with ⟨m', e⟩ | e
  · rw [e] at h1 ⊢; exact h1
  · rw [e] at h1 ⊢
    have ha := (retainPairedU_follows (m := m) (calm₂ f) st).agrees fate
    cases e2 : retainPairedU (sure₂ (calm₂ f)) st fate m with
    | done a f' m1 =>
      rw [e2] at h1 ha
      refine ⟨h1.1, ?_⟩
      cases e3 : Repair.retainPaired m (calm₂ f) st with
      | error p => rw [e3] at ha; cases ha
      | ok x => rw [e3] at ha; cases ha; exact ⟨x.1, rfl⟩
    | panic w m1 => rw [e2] at h1; exact h1
    | abort => rw [e2] at h1; exact h1

section
variable [LawfulRaw] [EquivBEq L] [EquivBEq R]

theorem retainU_leaves {σ : Type} (h : Repr m c) (f : σ → OptionalPair L R → Option Bool × σ) (st : σ) :
    Ends (retainU f st) m (fun _ _ => True) (Stops fun m' => ∃ d, LeavesRetain c f st d ∧ Repr m' d) S := by
  refine .get_bind <| ((retainPairedU_ends (onPairs f) st).mono (fun _ _ h => h) ?_).bind ?_
  · intro w m' e hw; rw [e hw]; exact ⟨c, .inl rfl, h⟩
  · rintro _ m1 ⟨st', e⟩
    rw [e]
    obtain ⟨d, m1', hd, e', h1⟩ := retainPaired_repair h (calm₂ (onPairs f)) st
    rw [e'] at e; cases e
    refine (PartialMap.retainUnpairedU_same (neg f) _).mono (fun _ _ h => h) ?_
    intro w m' e hw
    rw [e hw]
    exact ⟨_, .inr ⟨d, hd, rfl⟩, h1⟩

theorem stops_map {β : Type} {x : Unw (PartialMap L R) β} {g : β → Out L R} {P : PartialMap L R → Prop}
    (h : Ends x m (fun _ _ => True) (Stops P) S) : Ends (do return g (← x)) m (fun _ _ => True) (Stops P) S := Same.map h

/-- a repaired call interrupted by the items' own code leaves a valid map -/
theorem execU_leaves (h : Repr m c) (op : Op L R) :
    Ends (execU op) m (fun _ _ => True) (Stops fun m' => ∃ d, Leaves c op d ∧ Repr m' d) S := by
  have i : Stops (fun m' => ∃ d, d = c ∧ Repr m' d) none m := fun _ => ⟨_, rfl, h⟩
  have same : ∀ {α : Type} {x : Unw (PartialMap L R) α}, Same x m S →
      Ends x m (fun _ _ => True) (Stops fun m' => ∃ d, d = c ∧ Repr m' d) S :=
    fun hx => hx.mono (fun _ _ h => h) fun w m' e hw => by rw [e hw]; exact ⟨_, rfl, h⟩
  have look : ∀ {g : PartialMap L R → Out L R}, Ends (do user; user; return g (← get)) m (fun _ _ => True)
      (Stops fun m' => ∃ d, d = c ∧ Repr m' d) S :=
    .user_bind i <| .user_bind i <| .get_bind <| .pure trivial
  have quiet := quietU_stops (m := m) (S := S) (P := fun m' => ∃ d, Leaves c op d ∧ Repr m' d) (fun m => m.exec op)
  cases op
  case insert l r => exact stops_map (insertU_leaves h l r)
  case insertLeft l => exact stops_map (insertLeftU_leaves h l)
  case insertRight r => exact stops_map (insertRightU_leaves h r)
  case pair l r => exact stops_map (same (pairU_same l r))
  case pairForced l r => exact stops_map (same (pairForcedU_same l r))
  case pairForcedRemove l r => exact stops_map (same (pairForcedRemoveU_same l r))
  case unpair l r => exact stops_map (same (unpairU_same l r))
  case remove l r => exact stops_map (same (removeU_same l r))
  case removeViaLeft l => exact stops_map (same (removeViaLeftU_same l))
  case removeViaRight r => exact stops_map (same (removeViaRightU_same r))
  case removeLeft l => exact stops_map (same (removeLeftU_same l))
  case removeRight r => exact stops_map (same (removeRightU_same r))
  case swapLeft a b => exact stops_map (swapLeftU_leaves h a b)
  case swapRight a b => exact stops_map (swapRightU_leaves h a b)
  case swapLeftChecked a e b => exact stops_map (swapLeftCheckedU_leaves h a e b)
  case swapRightChecked a e b => exact stops_map (swapRightCheckedU_leaves h a e b)
  case swapLeftOrInsert a b r =>
    have j : Stops (fun m' => ∃ d, LeavesInsert c b r d ∧ Repr m' d) none m := fun _ => ⟨_, .inl rfl, h⟩
    refine stops_map <| .user_bind j <| .user_bind j <| .get_bind ?_
    split
    · refine (swapLeftCoreU_leaves h a b).mono (fun _ _ h => h) ?_
      intro w m' e hw
      obtain ⟨d, h1 | h1, h2⟩ := e hw
      · exact ⟨d, .inl h1, h2⟩
      · exact ⟨d, .inr (.inl h1), h2⟩
    · refine (insertU_leaves h b r).bind fun o m' _ => ?_
      calm
  case swapRightOrInsert a b l =>
    have j : Stops (fun m' => ∃ d, (LeavesInsert c l b d ∨ d = eraseR c b) ∧ Repr m' d) none m := fun _ => ⟨_, .inl (.inl rfl), h⟩
    refine stops_map <| .user_bind j <| .user_bind j <| .get_bind ?_
    split
    · refine (swapRightCoreU_leaves h a b).mono (fun _ _ h => h) ?_
      intro w m' e hw
      obtain ⟨d, h1 | h1, h2⟩ := e hw
      · exact ⟨d, .inl (.inl h1), h2⟩
      · exact ⟨d, .inr h1, h2⟩
    · refine ((insertU_leaves h l b).mono (fun _ _ h => h) ?_).bind fun o m' _ => ?_
      · intro w m' e hw
        obtain ⟨d, h1, h2⟩ := e hw
        exact ⟨d, .inl h1, h2⟩
      · calm
  case iter => exact stops_map (same iterU_same)
  case iterPaired => exact .get_bind <| stops_map (same ((collectPairedU_same _).mono (fun _ _ _ => trivial) fun _ _ h => h))
  case retain σ f s => exact (retainU_leaves h (sure f) s).bind fun _ _ _ => .pure trivial
  case retainPaired σ f s => exact (same (PartialMap.retainPairedU_same (neg₂ (sure₂ f)) s)).bind fun _ _ _ => .pure trivial
  case retainUnpaired σ f s => exact (same (PartialMap.retainUnpairedU_same (neg (sure f)) s)).bind fun _ _ _ => .pure trivial
  case extendPairs xs => exact (extendPairsU_leaves h xs).bind fun _ _ _ => .pure trivial
  case extend xs => exact (extendU_leaves h xs).bind fun _ _ _ => .pure trivial
  case arePaired l r => exact stops_map (same (arePairedU_same l r))
  case getLeft => exact look
  case getRight => exact look
  case containsLeft => exact look
  case containsRight => exact look
  case isLeftPaired => exact look
  case isRightPaired => exact look
  case lenLeft => exact .get_bind <| .pure trivial
  case lenRight => exact .get_bind <| .pure trivial
  case isEmpty => exact .get_bind <| .pure trivial
  case clear => exact .get_bind <| .set_bind <| .pure trivial
  case iterUnpaired => exact .get_bind <| .pure trivial
  case iterLeft => exact .get_bind <| .pure trivial
  case iterRight => exact .get_bind <| .pure trivial
  case clone cl cr => exact .user_bind i <| .get_bind <| .set_bind <| .pure trivial
  case drain n => exact quietU_stops fun m => Repair.exec m (.drain n)
  case drainFilter σ f s n => exact quietU_stops fun m => Repair.exec m (.drainFilter σ f s n)
  all_goals exact quiet

end
end
end Verif.PartialMap.Sturdy
