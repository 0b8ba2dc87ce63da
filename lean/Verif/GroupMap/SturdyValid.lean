import Verif.GroupMap.Sturdy
import Verif.Props.RepairMachineGroup
/-! What an interrupted call of the repaired `GroupMap` (`Verif.GroupMap.Sturdy`) leaves, and what closures that panic do to it. -/
set_option linter.unusedSectionVars false
set_option linter.unusedSimpArgs false
namespace Verif.GroupMap.Sturdy
open GroupSpec Unw

section
variable [RawImpl] {L R : Type} [BEq L] [BEq R]

/-- the contents `d` an interrupted call of the repaired map may leave, of the contents `c` -/
def Leaves (c : Contents L R) : Op L R → Contents L R → Prop
  | .insertRemove l r, d => d = c ∨ d = eraseL c l ∨ d = eraseR (eraseL c l) r
  | .insertRight r, d => d = c ∨ d = eraseR c r
  | .swapRight _ new, d => d = c ∨ d = eraseR c new
  | .swapRightRemove _ new, d => d = c ∨ d = eraseR c new
  | .remove _ r, d => d = c ∨ d = eraseR c r
  | .removeRight r, d => d = c ∨ d = eraseR c r
  | .extend xs, d => LeavesExtend c (xs.map fun p => (some p.1, p.2)) d
  | .extendOpt xs, d => LeavesExtend c xs d
  | _, d => d = c

variable {m m' : GroupMap L R} {c : Contents L R} {S : Option (List Bool) → Prop}

theorem users_stops {P : GroupMap L R → Prop} (n : Nat) (h : P m) : Ends (users n) m (fun _ m' => m' = m) (Stops P) S := by
  induction n with
  | zero => exact .pure rfl
  | succ n ih => exact .user_bind (fun _ => h) ih

theorem removeRightU_either (r : R) :
    Ends (removeRightU r) m (fun _ _ => True) (Stops fun m' => m' = m ∨ ∃ o, m.removeRight r = .ok (o, m')) S := by
  have i : Stops (fun m' => m' = m ∨ ∃ o, m.removeRight r = .ok (o, m')) none m := fun _ => .inl rfl
  refine .user_bind i <| .user_bind i <| .get_bind ?_
  cases e : m.right.removeEntry (m.hb.hr r) (equivalentKeyRight r) with
  | none => exact .pure trivial
  | some x =>
    refine .set_bind ?_
    refine ((removeAllU_follows (m := { m with right := x.2 }) false x.1.pairs.entries).ends (removeAllU_stops _)).bind ?_
    rintro ls m1 ⟨e1, -⟩
    refine (users_stops _ ?_).bind fun _ _ _ => .pure trivial
    cases e2 : removeAll m.left x.1.pairs.entries with
    | error p => simp only [e2, bind, Except.bind] at e1; cases e1
    | ok y =>
      simp only [e2, bind, Except.bind, pure, Except.pure] at e1
      cases e1
      refine .inr ⟨some (collectSet y.1, x.1.value), ?_⟩
      simp only [removeRight, e, e2, bind, Except.bind, pure, Except.pure]

theorem takeLeftU_stops {P : GroupMap L R → Prop} (l : L) : Ends (takeLeftU l) m (fun _ _ => True) (Stops P) S := by
  refine .get_bind ?_
  simp only
  split
  · exact .pure trivial
  · refine .set_bind ?_
    split
    · exact .fail .fail
    · exact .set_bind (.pure trivial)

theorem rehashAllU_stops {P : GroupMap L R → Prop} (a : UInt64) (i : Nat) (ks : List (UInt64 × Nat)) :
    Ends (rehashAllU a i ks) m (fun _ _ => True) (Stops P) S := by
  induction ks generalizing m with
  | nil => exact .pure trivial
  | cons k ks ih =>
    refine .get_bind ?_
    split
    · exact .fail .fail
    · exact .set_bind ih

theorem set_ends {I : Option Panic → GroupMap L R → Prop} {n : GroupMap L R} : Ends (set n) m (fun _ _ => True) I S :=
  fun _ _ => ⟨rfl, trivial⟩

theorem insertU_same (l : L) (r : R) : Same (insertU l r) m S := by
  have i : Stops (· = m) none m := fun _ => rfl
  refine ((arePairedU_follows l r).ends (arePairedU_same l r)).bind ?_
  rintro a m' ⟨⟨⟩, -⟩
  split
  · exact .pure trivial
  refine .user_bind i <| .user_bind i <| .user_bind i <| .user_bind i <| .get_bind ?_
  simp only
  cases e1 : m.left.getMut (m.hb.hl l) (equivalentKeyLeft l) with
  | none =>
    cases e2 : m.right.getMut (m.hb.hr r) (equivalentKeyRight r) with
    | none => exact .set_bind <| .get_bind <| .set_bind <| .get_bind set_ends
    | some x => exact .set_bind <| .set_bind <| .get_bind set_ends
  | some y =>
    cases e2 : m.right.getMut (m.hb.hr r) (equivalentKeyRight r) with
    | none =>
      simp only
      split
      · exact .fail .fail
      · exact .set_bind <| .set_bind <| .get_bind set_ends
    | some x =>
      refine .set_bind ?_
      split
      · exact .fail .fail
      · exact set_ends

theorem insertLeftU_same (l : L) (r : R) : Same (insertLeftU l r) m S := by
  have i : Stops (· = m) none m := fun _ => rfl
  refine .user_bind i <| .user_bind i <| .get_bind ?_
  simp only
  split
  · exact .pure trivial
  · exact .user_bind i <| .user_bind i <| .set_bind <| (takeLeftU_stops l).bind fun _ _ _ => .get_bind <| .set_bind <| .pure trivial

theorem pairU_same (l : L) (r : R) : Same (pairU l r) m S := by
  have i : Stops (· = m) none m := fun _ => rfl
  refine .user_bind i <| .user_bind i <| .user_bind i <| .user_bind i <| .get_bind ?_
  simp only
  split
  · refine .set_bind ?_
    split
    · exact .fail .fail
    · refine .set_bind ?_
      split
      · exact .fail .fail
      · exact .set_bind <| .pure trivial
  · exact .pure trivial

theorem retainPairedU_same {σ : Type} (f : σ → L → R → Option Bool × σ) (st : σ) : Same (retainPairedU f st) m S := by
  refine .get_bind <| (retainPairedScanU_same (neg f) _ st).bind ?_
  rintro ks _ rfl
  split
  · exact .fail .fail
  · exact set_ends

/-! ### closures that panic -/

/-- a closure that panics, as one that does not -/
def calm {σ : Type} (f : σ → L → R → Option Bool × σ) (s : σ) (l : L) (r : R) : Bool × σ := ((f s l r).1.getD false, (f s l r).2)

/-- a closure that panics, as one that does not -/
def calm1 {σ : Type} (f : σ → R → Option Bool × σ) (s : σ) (r : R) : Bool × σ := ((f s r).1.getD false, (f s r).2)

theorem user_run {α : Type} {g : Unit → Unw (GroupMap L R) α} {f : Fate} :
    (Unw.user >>= g) f m = .panic none m ∨ ∃ f', ∀ g' : Unit → Unw (GroupMap L R) α, (Unw.user >>= g') f m = g' () f' m := by
  obtain ⟨k, s⟩ := f
  cases k with
  | zero => exact .inl rfl
  | succ k => exact .inr ⟨⟨k, s⟩, fun _ => rfl⟩

theorem retainPairedScanU_calm {σ : Type} (f : σ → L → R → Option Bool × σ) (ls : List (LeftItem L)) (st : σ) (fate : Fate) :
    (∃ m', retainPairedScanU f ls st fate m = .panic none m') ∨
      retainPairedScanU f ls st fate m = retainPairedScanU (sure (calm f)) ls st fate m := by
  induction ls generalizing st fate with
  | nil => exact .inr rfl
  | cons l ls ih =>
    show (∃ m', (match m.right.get l.hash (rightWithRightId l.rid) with
      | none => fail .unwrapNone
      | some r => _ : Unw (GroupMap L R) _) fate m = _) ∨ (match m.right.get l.hash (rightWithRightId l.rid) with
      | none => fail .unwrapNone
      | some r => _ : Unw (GroupMap L R) _) fate m = (match m.right.get l.hash (rightWithRightId l.rid) with
      | none => fail .unwrapNone
      | some r => _ : Unw (GroupMap L R) _) fate m
    cases m.right.get l.hash (rightWithRightId l.rid) with
    | none => exact .inr rfl
    | some r =>
      simp only
      cases h2 : f st l.value r.value with
      | mk o st' =>
        have hs : sure (calm f) st l.value r.value = (some (o.getD false), st') := by simp [sure, calm, h2]
        rw [hs]
        match o with
        | none => exact .inl ⟨m, rfl⟩
        | some false => exact ih st' fate
        | some true =>
          simp only [Option.getD]
          rcases user_run (m := m) (f := fate) (g := fun _ => (do
            user
            match m.getLeftInnerWithHash l.value (m.hb.hl l.value) with
            | none => fail .unwrapNone
            | some item =>
              let d ← retainPairedScanU f ls st'
              return (m.hb.hl l.value, item.id) :: d : Unw (GroupMap L R) _)) with e | ⟨f1, e⟩
          · exact .inl ⟨m, e⟩
          rw [e, e]
          rcases user_run (m := m) (f := f1) (g := fun _ => (do
            match m.getLeftInnerWithHash l.value (m.hb.hl l.value) with
            | none => fail .unwrapNone
            | some item =>
              let d ← retainPairedScanU f ls st'
              return (m.hb.hl l.value, item.id) :: d : Unw (GroupMap L R) _)) with e | ⟨f2, e⟩
          · exact .inl ⟨m, e⟩
          rw [e, e]
          cases m.getLeftInnerWithHash l.value (m.hb.hl l.value) with
          | none => exact .inr rfl
          | some item =>
            simp only [bind]
            rcases ih st' f2 with ⟨m', h⟩ | h
            · exact .inl ⟨m', by rw [h]⟩
            · exact .inr (by rw [h])

theorem retainUnpairedScanU_calm {σ : Type} (f : σ → R → Option Bool × σ) (rs : List R) (st : σ) (fate : Fate) :
    (∃ m', retainUnpairedScanU f rs st fate m = .panic none m') ∨
      retainUnpairedScanU f rs st fate m = retainUnpairedScanU (sure1 (calm1 f)) rs st fate m := by
  induction rs generalizing st fate with
  | nil => exact .inr rfl
  | cons r rs ih =>
    simp only [retainUnpairedScanU]
    cases h2 : f st r with
    | mk o st' =>
      have hs : (sure1 (calm1 f) : σ → R → Option Bool × σ) st r = (some (o.getD false), st') := by simp [sure1, calm1, h2]
      rw [hs]
      match o with
      | none => exact .inl ⟨m, rfl⟩
      | some false => exact ih st' fate
      | some true =>
        simp only [Option.getD]
        rcases user_run (m := m) (f := fate) (g := fun _ => (do
            user
            let m ← get
            match m.getRightInnerWithHash r (m.hb.hr r) with
            | none => fail .unwrapNone
            | some item =>
              let d ← retainUnpairedScanU f rs st'
              return (m.hb.hr r, item.id) :: d : Unw (GroupMap L R) _)) with e | ⟨f1, e⟩
        · exact .inl ⟨m, e⟩
        rw [e, e]
        rcases user_run (m := m) (f := f1) (g := fun _ => (do
            let m ← get
            match m.getRightInnerWithHash r (m.hb.hr r) with
            | none => fail .unwrapNone
            | some item =>
              let d ← retainUnpairedScanU f rs st'
              return (m.hb.hr r, item.id) :: d : Unw (GroupMap L R) _)) with e | ⟨f2, e⟩
        · exact .inl ⟨m, e⟩
        rw [e, e]
        simp only [bind, Unw.get]
        cases m.getRightInnerWithHash r (m.hb.hr r) with
        | none => exact .inr rfl
        | some item =>
          simp only
          rcases ih st' f2 with ⟨m', h⟩ | h
          · exact .inl ⟨m', by rw [h]⟩
          · exact .inr (by rw [h])

/-- a call whose closure panics is interrupted, or it is the call with a closure that does not -/
theorem callU_calm (call : Call L R) (fate : Fate) :
    (∃ m', callU call fate m = .panic none m') ∨ ∃ op, (∀ cl cr, call = .plain (.clone cl cr) ↔ op = .clone cl cr) ∧
      callU call fate m = execU op fate m := by
  cases call with
  | plain op => exact .inr ⟨op, by simp, rfl⟩
  | retainPaired σ f s =>
    let g : σ → L → R → Bool × σ := fun s l r => (!(calm (neg f) s l r).1, (calm (neg f) s l r).2)
    have hg : neg (sure g) = sure (calm (neg f)) := by
      funext s l r; simp [neg, sure, g]
    rcases retainPairedScanU_calm (m := m) (neg f) m.iterPaired.todo s fate with ⟨m', e⟩ | e
    · exact .inl ⟨m', by simp only [callU, retainPairedU, bind, Unw.get, e]⟩
    · refine .inr ⟨.retainPaired σ g s, by simp, ?_⟩
      simp only [callU, execU, retainPairedU, bind, Unw.get, hg, e]
  | retainUnpaired σ f s =>
    let g : σ → R → Bool × σ := fun s r => (!(calm1 (neg1 f) s r).1, (calm1 (neg1 f) s r).2)
    have hg : (neg1 (sure1 g) : σ → R → Option Bool × σ) = sure1 (calm1 (neg1 f)) := by
      funext s r; simp [neg1, sure1, g]
    rcases retainUnpairedScanU_calm (m := m) (neg1 f) m.iterUnpairedList s fate with ⟨m', e⟩ | e
    · exact .inl ⟨m', by simp only [callU, retainUnpairedU, GroupMap.retainUnpairedU, bind, Unw.get, e]⟩
    · refine .inr ⟨.retainUnpaired σ g s, by simp, ?_⟩
      simp only [callU, execU, retainUnpairedU, GroupMap.retainUnpairedU, bind, Unw.get, hg, e]

end

section
variable [RawImpl] [LawfulRaw] {L R : Type} [BEq L] [BEq R] [EquivBEq L] [EquivBEq R]
variable {m m' : GroupMap L R} {c : Contents L R} {S : Option (List Bool) → Prop}

theorem removeRightU_leaves (h : Repr m c) (r : R) :
    Ends (removeRightU r) m (fun _ _ => True) (Stops fun m' => ∃ d, (d = c ∨ d = eraseR c r) ∧ Repr m' d) S := by
  refine (removeRightU_either r).mono (fun _ _ h => h) fun w m' e hw => ?_
  rcases e hw with rfl | ⟨o, e⟩
  · exact ⟨c, .inl rfl, h⟩
  · obtain ⟨o', m1, e1, -, h1, -⟩ := removeRight_refines h r
    rw [e1] at e; cases e
    exact ⟨_, .inr rfl, h1⟩

theorem removeRightU_done (h : Repr m c) (r : R) : Ends (removeRightU r) m (fun _ m' => Repr m' (eraseR c r))
    (Stops fun m' => ∃ d, (d = c ∨ d = eraseR c r) ∧ Repr m' d) S := by
  refine ((removeRightU_follows r).ends (removeRightU_leaves h r)).mono ?_ fun _ _ h => h
  rintro o m' ⟨e, -⟩
  obtain ⟨o', m1, e1, -, h1, -⟩ := removeRight_refines h r
  rw [e1] at e; cases e
  exact h1

theorem removeU_leaves (h : Repr m c) (l : L) (r : R) :
    Ends (removeU l r) m (fun _ _ => True) (Stops fun m' => ∃ d, (d = c ∨ d = eraseR c r) ∧ Repr m' d) S := by
  refine (((arePairedU_follows l r).ends (arePairedU_same l r)).mono (fun _ _ h => h)
    (I' := Stops fun m' => ∃ d, (d = c ∨ d = eraseR c r) ∧ Repr m' d) ?_).bind ?_
  · intro w m' e hw; rw [e hw]; exact ⟨c, .inl rfl, h⟩
  rintro a m' ⟨⟨⟩, -⟩
  split
  · exact removeRightU_leaves h r
  · exact .pure trivial

theorem insertRightU_leaves (h : Repr m c) (r : R) :
    Ends (insertRightU r) m (fun _ _ => True) (Stops fun m' => ∃ d, (d = c ∨ d = eraseR c r) ∧ Repr m' d) S := by
  refine (removeRightU_done h r).bind fun o1 m1 h1 => ?_
  exact .user_bind (fun _ => ⟨_, .inr rfl, h1⟩) <| .get_bind <| .set_bind <| .pure trivial

theorem insertRemoveU_leaves (h : Repr m c) (l : L) (r : R) :
    Ends (insertRemoveU l r) m (fun _ _ => True)
      (Stops fun m' => ∃ d, (d = c ∨ d = eraseL c l ∨ d = eraseR (eraseL c l) r) ∧ Repr m' d) S := by
  refine (((removeLeftU_follows l).ends (removeLeftU_same l)).mono (fun _ _ h => h)
    (I' := Stops fun m' => ∃ d, (d = c ∨ d = eraseL c l ∨ d = eraseR (eraseL c l) r) ∧ Repr m' d) ?_).bind ?_
  · intro w m' e hw; rw [e hw]; exact ⟨c, .inl rfl, h⟩
  rintro o1 m1 ⟨e1, -⟩
  obtain ⟨m1', e1', h1, -⟩ := removeLeft_refines h l
  rw [e1'] at e1; cases e1
  refine ((removeRightU_done h1 r).mono (fun _ _ h => h)
    (I' := Stops fun m' => ∃ d, (d = c ∨ d = eraseL c l ∨ d = eraseR (eraseL c l) r) ∧ Repr m' d) ?_).bind ?_
  · intro w m' e hw
    obtain ⟨d, h2, h3⟩ := e hw
    exact ⟨d, .inr h2, h3⟩
  intro o2 m2 h2
  have i : Stops (fun m' => ∃ d, (d = c ∨ d = eraseL c l ∨ d = eraseR (eraseL c l) r) ∧ Repr m' d) none m2 :=
    fun _ => ⟨_, .inr (.inr rfl), h2⟩
  exact .user_bind i <| .user_bind i <| .get_bind <| .set_bind <| .get_bind <| .set_bind <| .pure trivial

theorem swapRightIdsU_leaves (h : Repr m c) (old new : R) :
    Ends (swapRightIdsU old new) m (fun _ _ => True) (Stops fun m' => ∃ d, (d = c ∨ d = eraseR c new) ∧ Repr m' d) S := by
  have i : Stops (fun m' => ∃ d, (d = c ∨ d = eraseR c new) ∧ Repr m' d) none m := fun _ => ⟨c, .inl rfl, h⟩
  refine .user_bind i <| .user_bind i <| .get_bind ?_
  split
  · exact Ends.bind (K := fun _ _ => True) (insertRightU_leaves h new) fun _ _ _ => .pure trivial
  · exact .user_bind i <| .set_bind <| .set_bind <| .get_bind <| .set_bind <| rehashAllU_stops _ _ _

theorem swapRightRemoveIdsU_leaves (h : Repr m c) (old new : R) :
    Ends (swapRightRemoveIdsU old new) m (fun _ _ => True) (Stops fun m' => ∃ d, (d = c ∨ d = eraseR c new) ∧ Repr m' d) S := by
  have i : Stops (fun m' => ∃ d, (d = c ∨ d = eraseR c new) ∧ Repr m' d) none m := fun _ => ⟨c, .inl rfl, h⟩
  refine .user_bind i <| .user_bind i <| .get_bind ?_
  split
  · exact Ends.bind (K := fun _ _ => True) (insertRightU_leaves h new) fun _ _ _ => .pure trivial
  · exact .user_bind i <| .set_bind <| .set_bind <| .get_bind <| .set_bind <| stops_void (rehashAllU_stops _ _ _)

theorem twice {d : Contents L R} {new : R} (h : d = eraseR c new ∨ d = eraseR (eraseR c new) new) : d = c ∨ d = eraseR c new := by
  rw [erased_twice] at h
  exact .inr (h.elim id id)

theorem swapRightU_leaves (h : Repr m c) (old new : R) :
    Ends (swapRightU old new) m (fun _ _ => True) (Stops fun m' => ∃ d, (d = c ∨ d = eraseR c new) ∧ Repr m' d) S := by
  have i : Stops (fun m' => ∃ d, (d = c ∨ d = eraseR c new) ∧ Repr m' d) none m := fun _ => ⟨c, .inl rfl, h⟩
  refine .user_bind i <| .user_bind i <| .user_bind i <| .get_bind ?_
  split
  · exact .pure trivial
  · refine (removeRightU_done h new).bind fun _ m1 h1 => (swapRightIdsU_leaves h1 old new).mono (fun _ _ h => h) ?_
    intro w m' e hw
    obtain ⟨d, hd, h2⟩ := e hw
    exact ⟨d, twice hd, h2⟩

theorem swapRightRemoveU_leaves (h : Repr m c) (old new : R) :
    Ends (swapRightRemoveU old new) m (fun _ _ => True) (Stops fun m' => ∃ d, (d = c ∨ d = eraseR c new) ∧ Repr m' d) S := by
  have i : Stops (fun m' => ∃ d, (d = c ∨ d = eraseR c new) ∧ Repr m' d) none m := fun _ => ⟨c, .inl rfl, h⟩
  refine .user_bind i ?_
  split
  · exact swapRightRemoveIdsU_leaves h old new
  · refine (removeRightU_done h new).bind fun _ m1 h1 => (swapRightRemoveIdsU_leaves h1 old new).mono (fun _ _ h => h) ?_
    intro w m' e hw
    obtain ⟨d, hd, h2⟩ := e hw
    exact ⟨d, twice hd, h2⟩

theorem leaves_cons {x : Option L × R} {xs : List (Option L × R)} {c' d : Contents L R}
    (hx : c' = insertAll c [x]) (h : LeavesExtend c' xs d) : LeavesExtend c (x :: xs) d := by
  obtain ⟨ys, zs, rfl, h⟩ := h
  have : insertAll c (x :: ys) = insertAll c' ys := by
    subst hx
    obtain ⟨_ | l, r⟩ := x <;> rfl
  exact ⟨x :: ys, zs, rfl, by rw [this]; exact h⟩

theorem extendOptU_leaves (h : Repr m c) (xs : List (Option L × R)) :
    Ends (extendOptU xs) m (fun _ _ => True) (Stops fun m' => ∃ d, LeavesExtend c xs d ∧ Repr m' d) S := by
  induction xs generalizing m c with
  | nil =>
    refine (Ends.user ?_).mono (fun _ _ _ => trivial) fun _ _ h => h
    exact fun _ => ⟨c, ⟨[], [], rfl, .inl rfl⟩, h⟩
  | cons x xs ih =>
    have i : Stops (fun m' => ∃ d, LeavesExtend c (x :: xs) d ∧ Repr m' d) none m :=
      fun _ => ⟨c, ⟨[], x :: xs, rfl, .inl rfl⟩, h⟩
    obtain ⟨o, r⟩ := x
    cases o with
    | some l =>
      refine .user_bind i ?_
      refine (((insertU_follows l r).ends (insertU_same l r)).mono (fun _ _ h => h)
        (I' := Stops fun m' => ∃ d, LeavesExtend c ((some l, r) :: xs) d ∧ Repr m' d) ?_).bind ?_
      · intro w m' e hw; rw [e hw]; exact i rfl
      · rintro o m1 ⟨e, -⟩
        obtain ⟨m1', e', h1⟩ := insert_repair h l r
        simp only [e', bind, Except.bind, pure, Except.pure] at e; cases e
        rw [← insert_eq_inserted] at h1
        refine (ih h1).mono (fun _ _ h => h) ?_
        intro w m' e hw
        obtain ⟨d, h2, h3⟩ := e hw
        exact ⟨d, leaves_cons rfl h2, h3⟩
    | none =>
      refine .user_bind i ?_
      refine (((insertRightU_follows r).ends (insertRightU_leaves h r)).mono (fun _ _ h => h)
        (I' := Stops fun m' => ∃ d, LeavesExtend c ((none, r) :: xs) d ∧ Repr m' d) ?_).bind ?_
      · intro w m' e hw
        obtain ⟨d, h1, h2⟩ := e hw
        refine ⟨d, ?_, h2⟩
        rcases h1 with rfl | rfl
        · exact ⟨[], _, rfl, .inl rfl⟩
        · exact ⟨[], _, rfl, .inr ⟨r, xs, rfl, rfl⟩⟩
      · rintro o m1 ⟨e, -⟩
        obtain ⟨o', m1', e', -, h1, -⟩ := insertRight_refines h r
        rw [e'] at e; cases e
        refine (ih h1).mono (fun _ _ h => h) ?_
        intro w m' e hw
        obtain ⟨d, h2, h3⟩ := e hw
        exact ⟨d, leaves_cons rfl h2, h3⟩

/-- a call of the repaired map interrupted by the items' own code leaves a valid map -/
theorem execU_leaves (h : Repr m c) (op : Op L R) :
    Ends (execU op) m (fun _ _ => True) (Stops fun m' => ∃ d, Leaves c op d ∧ Repr m' d) S := by
  have i : Stops (fun m' => ∃ d, d = c ∧ Repr m' d) none m := fun _ => ⟨_, rfl, h⟩
  have same : ∀ {α : Type} {x : Unw (GroupMap L R) α}, Same x m S →
      Ends x m (fun _ _ => True) (Stops fun m' => ∃ d, d = c ∧ Repr m' d) S :=
    fun hx => hx.mono (fun _ _ h => h) fun w m' e hw => by rw [e hw]; exact ⟨_, rfl, h⟩
  cases op
  case insert l r => exact stops_void (same (insertU_same l r))
  case insertRemove l r => exact (insertRemoveU_leaves h l r).bind fun _ _ _ => .pure trivial
  case insertLeft l r => exact stops_map (same (insertLeftU_same l r))
  case insertRight r => exact stops_map (insertRightU_leaves h r)
  case swapRight a b => exact stops_void (swapRightU_leaves h a b)
  case swapRightRemove a b => exact stops_map (swapRightRemoveU_leaves h a b)
  case pair l r => exact stops_map (same (pairU_same l r))
  case remove l r => exact stops_map (removeU_leaves h l r)
  case removeLeft l => exact stops_map (same (removeLeftU_same l))
  case removeRight r => exact stops_map (removeRightU_leaves h r)
  case getRight => exact .user_bind i <| .user_bind i <| .get_bind <| .pure trivial
  case getLeftIter => exact .user_bind i <| .user_bind i <| stops_map (quiet_stops _)
  case containsLeft => exact .user_bind i <| .user_bind i <| .get_bind <| .pure trivial
  case containsRight => exact .user_bind i <| .user_bind i <| .get_bind <| .pure trivial
  case isRightPaired => exact .user_bind i <| .user_bind i <| .get_bind <| .pure trivial
  case arePaired l r => exact stops_map (same (arePairedU_same l r))
  case lenLeft => exact .get_bind <| .pure trivial
  case lenRight => exact .get_bind <| .pure trivial
  case isEmpty => exact .get_bind <| .pure trivial
  case clear => exact .get_bind <| .set_bind <| .pure trivial
  case iter => exact stops_map (quiet_stops _)
  case iterPaired => exact stops_map (quiet_stops _)
  case iterUnpaired => exact .get_bind <| .pure trivial
  case iterLeft => exact .get_bind <| .pure trivial
  case iterRight => exact .get_bind <| .pure trivial
  case retainPaired σ f s => exact stops_void (same (retainPairedU_same (sure f) s))
  case retainUnpaired σ f s => exact stops_void (same (GroupMap.retainUnpairedU_same _ s))
  case extend xs =>
    refine stops_void ?_
    rw [extendU_eq]
    exact extendOptU_leaves h _
  case extendOpt xs => exact stops_void (extendOptU_leaves h xs)
  case clone => exact .user_bind i <| .get_bind <| .set_bind <| .pure trivial

end
end Verif.GroupMap.Sturdy
