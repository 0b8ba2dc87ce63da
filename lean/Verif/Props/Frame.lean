import Verif.Props.CycleDemo
import Verif.CycleMap.Simulation
/-!
Property C145 (`CycleMap`): calls neither see nor touch items they have nothing to do with.

A call that works on single items is given some of them.  Pairs none of whose items it is given have no influence on what
it returns, on whether it panics and on what it does to the other pairs, and they stay what they are.  So a history of such calls
does the same in a small map and in a large one, and histories that are about different pairs can be swapped.
(What a wrong answer to "is this the entry I am looking for?" would break: hashes that collide, ids given out twice.)
-/
set_option linter.unusedSectionVars false
set_option linter.unusedSimpArgs false

namespace Verif.CycleMap
open CycleSpec OptionalPair

variable {L R : Type}

/-- the left items given to a call -/
def Op.lefts : Op L R → List L
  | .insert l _ | .remove l _ | .removeViaLeft l | .getRight l | .containsLeft l | .arePaired l _ => [l]
  | .swapLeft old new | .swapLeftChecked old _ new | .swapLeftOrInsert old new _ => [old, new]
  | .swapRightChecked _ e _ => [e]
  | .swapRightOrInsert _ _ l => [l]
  | .extend xs => xs.map (·.1)
  | _ => []

/-- the right items given to a call -/
def Op.rights : Op L R → List R
  | .insert _ r | .remove _ r | .removeViaRight r | .getLeft r | .containsRight r | .arePaired _ r => [r]
  | .swapRight old new | .swapRightChecked old _ new | .swapRightOrInsert old new _ => [old, new]
  | .swapLeftChecked _ e _ => [e]
  | .swapLeftOrInsert _ _ r => [r]
  | .extend xs => xs.map (·.2)
  | _ => []

/-- the calls that are about single items, and the capacity calls -/
def Op.Local : Op L R → Prop
  | .len | .isEmpty | .clear | .iter | .iterLeft | .iterRight | .drain _ | .drainFilter .. | .drainFilterAll .. | .retain ..
  | .clone .. => False
  | _ => True

variable [BEq L] [BEq R]

/-- none of the pairs `b` has an item that is given to the call -/
def Op.Apart (op : Op L R) (b : List (L × R)) : Prop :=
  (∀ x ∈ op.lefts, ∀ p ∈ b, (x == p.1) = false) ∧ ∀ y ∈ op.rights, ∀ p ∈ b, (y == p.2) = false

section Lists
variable {a b : List (L × R)}

theorem findL_frame {x : L} (h : ∀ p ∈ b, (x == p.1) = false) : findL (a ++ b) x = findL a x := by
  have : b.find? (fun p => x == p.1) = none := List.find?_eq_none.2 fun p hp => by simp [h p hp]
  simp [findL, List.find?_append, this]

theorem findR_frame {y : R} (h : ∀ p ∈ b, (y == p.2) = false) : findR (a ++ b) y = findR a y := by
  have : b.find? (fun p => y == p.2) = none := List.find?_eq_none.2 fun p hp => by simp [h p hp]
  simp [findR, List.find?_append, this]

theorem hasPair_frameL {x : L} {y : R} (h : ∀ p ∈ b, (x == p.1) = false) : hasPair (a ++ b) x y = hasPair a x y := by
  have : b.any (fun p => x == p.1 && y == p.2) = false := List.any_eq_false.2 fun p hp => by simp [h p hp]
  simp [hasPair, List.any_append, this]

theorem filter_frame {P : L × R → Bool} (h : ∀ p ∈ b, P p = true) : (a ++ b).filter P = a.filter P ++ b := by
  rw [List.filter_append, List.filter_eq_self.2 h]

theorem insert_frame {x : L} {y : R} (hx : ∀ p ∈ b, (x == p.1) = false) (hy : ∀ p ∈ b, (y == p.2) = false) :
    CycleSpec.insert (a ++ b) x y = ((CycleSpec.insert a x y).1, (CycleSpec.insert a x y).2 ++ b) := by
  simp only [CycleSpec.insert, findL_frame hx, findR_frame hy, hasPair_frameL hx, List.cons_append]
  rw [filter_frame fun p hp => by simp [hx p hp, hy p hp]]

theorem swapLeft_frame {old new : L} (ho : ∀ p ∈ b, (old == p.1) = false) (hn : ∀ p ∈ b, (new == p.1) = false) :
    CycleSpec.swapLeft (a ++ b) old new = ((CycleSpec.swapLeft a old new).1, (CycleSpec.swapLeft a old new).2 ++ b) := by
  simp only [CycleSpec.swapLeft, findL_frame ho, findL_frame hn, eraseL]
  cases findL a old with
  | none => simp only; rw [filter_frame fun p hp => by simp [hn p hp]]
  | some q => simp only [List.cons_append]; rw [filter_frame fun p hp => by simp [hn p hp, ho p hp]]

theorem swapRight_frame {old new : R} (ho : ∀ p ∈ b, (old == p.2) = false) (hn : ∀ p ∈ b, (new == p.2) = false) :
    CycleSpec.swapRight (a ++ b) old new = ((CycleSpec.swapRight a old new).1, (CycleSpec.swapRight a old new).2 ++ b) := by
  simp only [CycleSpec.swapRight, findR_frame ho, findR_frame hn, eraseR]
  cases findR a old with
  | none => simp only; rw [filter_frame fun p hp => by simp [hn p hp]]
  | some q => simp only [List.cons_append]; rw [filter_frame fun p hp => by simp [hn p hp, ho p hp]]

theorem insertAll_frame {xs : List (L × R)} (hx : ∀ x ∈ xs.map (·.1), ∀ p ∈ b, (x == p.1) = false)
    (hy : ∀ y ∈ xs.map (·.2), ∀ p ∈ b, (y == p.2) = false) : insertAll (a ++ b) xs = insertAll a xs ++ b := by
  induction xs generalizing a with
  | nil => rfl
  | cons q xs ih =>
    simp only [List.map_cons, List.mem_cons, forall_eq_or_imp] at hx hy
    simp only [insertAll, List.foldl_cons, insert_frame hx.1 hy.1]
    exact ih hx.2 hy.2

theorem any_frame {P : L × R → Bool} (h : ∀ p ∈ b, P p = false) : (a ++ b).any P = a.any P := by
  have : b.any P = false := List.any_eq_false.2 fun p hp => by simp [h p hp]
  rw [List.any_append, this, Bool.or_false]

theorem safe_frame {op : Op L R} (hl : op.Local) (h : op.Apart b) : Safe (a ++ b) op ↔ Safe a op := by
  cases op <;> simp only [Safe, Op.Local] at *
  case swapRightOrInsert old new l =>
    simp only [Op.Apart, Op.lefts, Op.rights, List.mem_cons, List.not_mem_nil, or_false, forall_eq_or_imp, forall_eq] at h
    rw [findR_frame h.2.1, findL_frame h.1]

/-- calls that are about single items have one outcome -/
theorem step_det {op : Op L R} {o o₂ : Out L R} {c c' c₂} (hl : op.Local) (h : Step c op o c') (h2 : Step c op o₂ c₂) :
    o₂ = o ∧ c₂ = c' := by
  cases op <;> simp only [Op.Local] at hl <;> simp only [Step] at h h2
  case swapLeftChecked | swapLeftOrInsert | swapRightChecked =>
    split at h <;> simp_all
  case swapRightOrInsert =>
    split at h <;> simp_all
  all_goals exact ⟨h2.1.trans h.1.symm, h2.2.trans h.2.symm⟩

/-- with the pairs `b` added, a call does the same and leaves `b` -/
theorem step_frame {op : Op L R} {o c'} (hl : op.Local) (h : op.Apart b) (hs : Step a op o c') :
    Step (a ++ b) op o (c' ++ b) := by
  obtain ⟨h1, h2⟩ := h
  cases op <;> simp only [Op.Local] at hl <;> simp only [Step] at hs ⊢ <;>
    simp only [Op.lefts, Op.rights, List.mem_cons, List.not_mem_nil, or_false, forall_eq_or_imp, forall_eq, false_implies,
      implies_true] at h1 h2
  case insert l r => rw [insert_frame h1 h2]; exact ⟨hs.1, by rw [hs.2]⟩
  case remove l r =>
    rw [hasPair_frameL h1, findL_frame h1, eraseL, filter_frame fun p hp => by simp [h1 p hp]]
    refine ⟨hs.1, ?_⟩
    rw [hs.2]; split <;> rfl
  case removeViaLeft l => rw [findL_frame h1, eraseL, filter_frame fun p hp => by simp [h1 p hp]]; exact ⟨hs.1, by rw [hs.2]; rfl⟩
  case removeViaRight r => rw [findR_frame h2, eraseR, filter_frame fun p hp => by simp [h2 p hp]]; exact ⟨hs.1, by rw [hs.2]; rfl⟩
  case swapLeft old new => rw [swapLeft_frame h1.1 h1.2]; exact ⟨hs.1, by rw [hs.2]⟩
  case swapRight old new => rw [swapRight_frame h2.1 h2.2]; exact ⟨hs.1, by rw [hs.2]⟩
  case swapLeftChecked old e new =>
    rw [hasPair_frameL h1.1, swapLeft_frame h1.1 h1.2]
    split at hs <;> rename_i hh
    · rw [if_pos hh]; exact ⟨hs.1, by rw [hs.2]⟩
    · rw [if_neg hh]; exact ⟨hs.1, by rw [hs.2]⟩
  case swapRightChecked old e new =>
    rw [hasPair_frameL h1, swapRight_frame h2.1 h2.2]
    split at hs <;> rename_i hh
    · rw [if_pos hh]; exact ⟨hs.1, by rw [hs.2]⟩
    · rw [if_neg hh]; exact ⟨hs.1, by rw [hs.2]⟩
  case swapLeftOrInsert old new r =>
    rw [findL_frame h1.1, swapLeft_frame h1.1 h1.2, insert_frame h1.2 h2]
    split at hs <;> rename_i hh
    · rw [if_pos hh]; exact ⟨hs.1, by rw [hs.2]⟩
    · rw [if_neg hh]; exact ⟨hs.1, by rw [hs.2]⟩
  case swapRightOrInsert old new l =>
    rw [findR_frame h2.1, swapRight_frame h2.1 h2.2, insert_frame h1 h2.2, findL_frame h1, findR_frame h2.2]
    split at hs <;> rename_i hh
    · rw [if_pos hh]; exact ⟨hs.1, by rw [hs.2]⟩
    · rw [if_neg hh]; exact ⟨hs.1, hs.2.1, by rw [hs.2.2]⟩
  case getLeft r => rw [findR_frame h2]; exact ⟨hs.1, by rw [hs.2]⟩
  case getRight l => rw [findL_frame h1]; exact ⟨hs.1, by rw [hs.2]⟩
  case containsLeft l => rw [any_frame h1]; exact ⟨hs.1, by rw [hs.2]⟩
  case containsRight r => rw [any_frame h2]; exact ⟨hs.1, by rw [hs.2]⟩
  case arePaired l r => rw [hasPair_frameL h1]; exact ⟨hs.1, by rw [hs.2]⟩
  case extend xs => rw [insertAll_frame h1 h2]; exact ⟨hs.1, by rw [hs.2]⟩
  all_goals exact ⟨hs.1, by rw [hs.2]⟩

/-- every item of the pairs a call leaves was there before or is given to the call -/
theorem step_items {op : Op L R} {o c c'} (hl : op.Local) (hs : Step c op o c') {p} (hp : p ∈ c') :
    (p.1 ∈ c.map (·.1) ∨ p.1 ∈ op.lefts) ∧ (p.2 ∈ c.map (·.2) ∨ p.2 ∈ op.rights) := by
  have old : p ∈ c → (p.1 ∈ c.map (·.1) ∨ p.1 ∈ op.lefts) ∧ (p.2 ∈ c.map (·.2) ∨ p.2 ∈ op.rights) :=
    fun h => ⟨.inl (List.mem_map_of_mem h), .inl (List.mem_map_of_mem h)⟩
  have ins : ∀ {c : List (L × R)} {l r}, p ∈ (CycleSpec.insert c l r).2 → p = (l, r) ∨ p ∈ c := by
    intro c l r h
    simp only [CycleSpec.insert, List.mem_cons, List.mem_filter] at h
    exact h.imp id (·.1)
  have swL : ∀ {x y}, p ∈ (CycleSpec.swapLeft c x y).2 → (p.1 = y ∧ p.2 ∈ c.map (·.2)) ∨ p ∈ c := by
    intro x y h
    simp only [CycleSpec.swapLeft] at h
    split at h
    · rename_i a b hf
      simp only [List.mem_cons, List.mem_filter] at h
      exact h.imp (fun e => ⟨by rw [e], by rw [e]; exact List.mem_map.2 ⟨_, List.mem_of_find?_eq_some hf, rfl⟩⟩) (·.1)
    · exact .inr (List.mem_filter.1 h).1
  have swR : ∀ {x y}, p ∈ (CycleSpec.swapRight c x y).2 → (p.2 = y ∧ p.1 ∈ c.map (·.1)) ∨ p ∈ c := by
    intro x y h
    simp only [CycleSpec.swapRight] at h
    split at h
    · rename_i a b hf
      simp only [List.mem_cons, List.mem_filter] at h
      exact h.imp (fun e => ⟨by rw [e], by rw [e]; exact List.mem_map.2 ⟨_, List.mem_of_find?_eq_some hf, rfl⟩⟩) (·.1)
    · exact .inr (List.mem_filter.1 h).1
  cases op <;> simp only [Op.Local] at hl <;> simp only [Step] at hs <;> simp only [Op.lefts, Op.rights] at old ⊢
  case insert l r => rw [hs.2] at hp; exact (ins hp).elim (fun e => by simp [e]) old
  case remove l r =>
    rw [hs.2] at hp; split at hp
    · exact old (List.mem_filter.1 hp).1
    · exact old hp
  case removeViaLeft l => rw [hs.2] at hp; exact old (List.mem_filter.1 hp).1
  case removeViaRight l => rw [hs.2] at hp; exact old (List.mem_filter.1 hp).1
  case swapLeft x y => rw [hs.2] at hp; exact (swL hp).elim (fun e => ⟨.inr (by simp [e.1]), .inl e.2⟩) old
  case swapRight x y => rw [hs.2] at hp; exact (swR hp).elim (fun e => ⟨.inl e.2, .inr (by simp [e.1])⟩) old
  case swapLeftChecked x e y =>
    split at hs <;> rw [hs.2] at hp
    · exact (swL hp).elim (fun e => ⟨.inr (by simp [e.1]), .inl e.2⟩) old
    · exact old hp
  case swapRightChecked x e y =>
    split at hs <;> rw [hs.2] at hp
    · exact (swR hp).elim (fun e => ⟨.inl e.2, .inr (by simp [e.1])⟩) old
    · exact old hp
  case swapLeftOrInsert x y r =>
    split at hs <;> rw [hs.2] at hp
    · exact (swL hp).elim (fun e => ⟨.inr (by simp [e.1]), .inl e.2⟩) old
    · exact (ins hp).elim (fun e => by simp [e]) old
  case swapRightOrInsert x y l =>
    split at hs
    · rw [hs.2] at hp; exact (swR hp).elim (fun e => ⟨.inl e.2, .inr (by simp [e.1])⟩) old
    · rw [hs.2.2] at hp; exact (ins hp).elim (fun e => by simp [e]) old
  case extend xs =>
    rw [hs.2] at hp
    have : p ∈ xs ∨ p ∈ c := by
      clear hs old swL swR
      induction xs generalizing c with
      | nil => exact .inr hp
      | cons q xs ih =>
        rcases ih hp with h | h
        · exact .inl (List.mem_cons_of_mem _ h)
        · exact (ins h).elim (fun e => .inl (by simp [e])) .inr
    exact this.elim (fun h => ⟨.inr (List.mem_map_of_mem h), .inr (List.mem_map_of_mem h)⟩) old
  all_goals exact old (by rw [← hs.2]; exact hp)

theorem safe_of_step {op : Op L R} {o c c'} (hl : op.Local) (h : Step c op o c') : Safe c op := by
  cases op <;> simp only [Op.Local] at hl <;> simp only [Safe]
  case swapRightOrInsert =>
    simp only [Step] at h
    split at h
    · rename_i hh; exact .inl hh
    · exact .inr h.1

theorem step_of_safe {op : Op L R} {c} (hl : op.Local) (h : Safe c op) : ∃ o c', Step c op o c' := by
  cases op <;> simp only [Op.Local] at hl <;> simp only [Safe] at h <;> simp only [Step]
  case swapLeftChecked | swapLeftOrInsert | swapRightChecked => split <;> exact ⟨_, _, rfl, rfl⟩
  case swapRightOrInsert =>
    split
    · exact ⟨_, _, rfl, rfl⟩
    · rename_i hh; exact ⟨_, _, h.resolve_left hh, rfl, rfl⟩
  all_goals exact ⟨_, _, rfl, rfl⟩

theorem step_unframe {op : Op L R} {o d} (hl : op.Local) (h : op.Apart b) (hs : Step (a ++ b) op o d) :
    ∃ c', Step a op o c' ∧ d = c' ++ b := by
  obtain ⟨o', c', hs'⟩ := step_of_safe hl ((safe_frame hl h).1 (safe_of_step hl hs))
  obtain ⟨rfl, rfl⟩ := step_det hl hs (step_frame hl h hs')
  exact ⟨c', hs', rfl⟩

theorem steps_frame {ops : List (Op L R)} {os c'} (hl : ∀ op ∈ ops, op.Local) (h : ∀ op ∈ ops, op.Apart b)
    (hs : Steps a ops os c') : Steps (a ++ b) ops os (c' ++ b) := by
  induction ops generalizing a os with
  | nil => exact ⟨hs.1, by rw [hs.2]⟩
  | cons op ops ih =>
    obtain ⟨o, os', c1, e, s1, s2⟩ := hs
    rw [List.forall_mem_cons] at hl h
    exact ⟨o, os', c1 ++ b, e, step_frame hl.1 h.1 s1, ih hl.2 h.2 s2⟩

theorem steps_unframe {ops : List (Op L R)} {os d} (hl : ∀ op ∈ ops, op.Local) (h : ∀ op ∈ ops, op.Apart b)
    (hs : Steps (a ++ b) ops os d) : ∃ c', Steps a ops os c' ∧ d = c' ++ b := by
  induction ops generalizing a os with
  | nil => exact ⟨a, ⟨hs.1, rfl⟩, hs.2⟩
  | cons op ops ih =>
    obtain ⟨o, os', c1, e, s1, s2⟩ := hs
    rw [List.forall_mem_cons] at hl h
    obtain ⟨a1, s1', rfl⟩ := step_unframe hl.1 h.1 s1
    obtain ⟨a2, s2', rfl⟩ := ih hl.2 h.2 s2
    exact ⟨a2, ⟨o, os', a1, e, s1', s2'⟩, rfl⟩

theorem steps_det {ops : List (Op L R)} {os os₂ c c' c₂} (hl : ∀ op ∈ ops, op.Local) (h : Steps c ops os c')
    (h2 : Steps c ops os₂ c₂) : os₂ = os ∧ c₂ = c' := by
  induction ops generalizing c os os₂ with
  | nil => exact ⟨h2.1.trans h.1.symm, h2.2.trans h.2.symm⟩
  | cons op ops ih =>
    obtain ⟨o, os', c1, rfl, s1, s2⟩ := h
    obtain ⟨o', os'', c1', rfl, s1', s2'⟩ := h2
    rw [List.forall_mem_cons] at hl
    obtain ⟨rfl, rfl⟩ := step_det hl.1 s1 s1'
    obtain ⟨rfl, rfl⟩ := ih hl.2 s2 s2'
    exact ⟨rfl, rfl⟩

theorem steps_items {ops : List (Op L R)} {os c c'} (hl : ∀ op ∈ ops, op.Local) (h : Steps c ops os c') {p} (hp : p ∈ c') :
    (p.1 ∈ c.map (·.1) ∨ ∃ op ∈ ops, p.1 ∈ op.lefts) ∧ (p.2 ∈ c.map (·.2) ∨ ∃ op ∈ ops, p.2 ∈ op.rights) := by
  induction ops generalizing c os with
  | nil => rw [h.2] at hp; exact ⟨.inl (List.mem_map_of_mem hp), .inl (List.mem_map_of_mem hp)⟩
  | cons op ops ih =>
    obtain ⟨o, os', c1, rfl, s1, s2⟩ := h
    rw [List.forall_mem_cons] at hl
    obtain ⟨h1, h2⟩ := ih hl.2 s2
    constructor
    · rcases h1 with h1 | ⟨op', hm, h1⟩
      · obtain ⟨q, hq, e⟩ := List.mem_map.1 h1
        rw [← e]
        exact (step_items hl.1 s1 hq).1.imp id fun h => ⟨op, List.mem_cons_self .., h⟩
      · exact .inr ⟨op', List.mem_cons_of_mem _ hm, h1⟩
    · rcases h2 with h2 | ⟨op', hm, h2⟩
      · obtain ⟨q, hq, e⟩ := List.mem_map.1 h2
        rw [← e]
        exact (step_items hl.1 s1 hq).2.imp id fun h => ⟨op, List.mem_cons_self .., h⟩
      · exact .inr ⟨op', List.mem_cons_of_mem _ hm, h2⟩

end Lists

section Maps
variable [RawImpl] [LawfulRaw] [EquivBEq L] [EquivBEq R] {m n : CycleMap L R} {a b c : List (L × R)}

/-- a history of calls about single items is done to the end, or it ends with the panic of `swap_right_or_insert` -/
theorem local_run (h : Repr m c) {ops : List (Op L R)} (hl : ∀ op ∈ ops, op.Local) :
    (∃ os m' c', m.run ops = .ok (os, m') ∧ Steps c ops os c' ∧ Repr m' c') ∨
    (m.run ops = .error .unreachable ∧ ∀ os c', ¬ Steps c ops os c') := by
  induction ops generalizing m c with
  | nil => exact .inl ⟨[], m, c, rfl, ⟨rfl, rfl⟩, h⟩
  | cons op ops ih =>
    rw [List.forall_mem_cons] at hl
    by_cases hs : Safe c op
    · obtain ⟨o, m1, c1, e1, s1, h1⟩ := exec_simulates h hs
      rcases ih h1 hl.2 with ⟨os, m2, c2, e2, s2, h2⟩ | ⟨e2, no⟩
      · exact .inl ⟨o :: os, m2, c2, by simp [run, e1, e2, bind, Except.bind, pure, Except.pure], ⟨o, os, c1, rfl, s1, s2⟩, h2⟩
      · refine .inr ⟨by simp [run, e1, e2, bind, Except.bind], ?_⟩
        rintro os c' ⟨o', os', c1', rfl, s1', s2'⟩
        obtain ⟨rfl, rfl⟩ := step_det hl.1 s1 s1'
        exact no _ _ s2'
    · refine .inr ⟨?_, ?_⟩
      · obtain ⟨hl, -⟩ := hl
        cases op <;> simp only [Op.Local] at hl <;> simp only [Safe, not_true_eq_false, not_false_eq_true] at hs
        rw [run, exec, swapRightOrInsert_panics h _ _ _ hs]; rfl
      · rintro os c' ⟨o', os', c1', rfl, s1', s2'⟩
        exact hs (safe_of_step hl.1 s1')

theorem run_then {ops ops₂ : List (Op L R)} {os os₂ : List (Out L R)} {m₁ m₂ : CycleMap L R} (e : m.run ops = .ok (os, m₁))
    (e₂ : m₁.run ops₂ = .ok (os₂, m₂)) : m.run (ops ++ ops₂) = .ok (os ++ os₂, m₂) := by
  induction ops generalizing m os with
  | nil => simp only [run] at e; cases e; exact e₂
  | cons op ops ih =>
    cases e1 : m.exec op with
    | error x => simp [run, e1, bind, Except.bind] at e
    | ok x =>
      cases e2 : x.2.run ops with
      | error y => simp [run, e1, e2, bind, Except.bind] at e
      | ok y =>
        simp [run, e1, e2, bind, Except.bind, pure, Except.pure] at e
        obtain ⟨rfl, rfl⟩ := e
        simp [run, e1, ih e2, bind, Except.bind, pure, Except.pure]

/-- what is done to `a` is done to `a ++ b` -/
theorem run_of_steps (h : Repr m (a ++ b)) {ops : List (Op L R)} {os a'} (hl : ∀ op ∈ ops, op.Local)
    (hb : ∀ op ∈ ops, op.Apart b) (s : Steps a ops os a') : ∃ m', m.run ops = .ok (os, m') ∧ Repr m' (a' ++ b) := by
  rcases local_run h hl with ⟨os', m', c', e', s', r⟩ | ⟨-, no⟩
  · obtain ⟨rfl, rfl⟩ := steps_det hl (steps_frame hl hb s) s'
    exact ⟨m', e', r⟩
  · exact absurd (steps_frame hl hb s) (no _ _)

/-- C145: `m` holds the pairs of `n` and further pairs, with none of whose items the calls are given.  Then the calls return
the same for both maps, one by one, or panic for both maps in the same way; what is left of `m` is what is left of `n` and the further
pairs.  The hash functions of the two maps may be different. -/
theorem C145_cycle_frame (hm : Reachable m) (hab : Shows m (a ++ b)) (hn : Reachable n) (ha : Shows n a)
    {ops : List (Op L R)} (hl : ∀ op ∈ ops, op.Local) (h : ∀ op ∈ ops, op.Apart b) :
    (∃ os m' n' a', m.run ops = .ok (os, m') ∧ n.run ops = .ok (os, n') ∧ Shows m' (a' ++ b) ∧ Shows n' a') ∨
    (∃ e, m.run ops = .error e ∧ n.run ops = .error e) := by
  have rm := hm.repr_of_shows hab
  have rn := hn.repr_of_shows ha
  rcases local_run rn hl with ⟨os, n', a', e, s, r⟩ | ⟨e, no⟩
  · rcases local_run rm hl with ⟨os2, m', c', e2, s2, r2⟩ | ⟨e2, no⟩
    · obtain ⟨rfl, rfl⟩ := steps_det hl s2 (steps_frame hl h s)
      exact .inl ⟨_, m', n', a', e2, e, r2.shows, r.shows⟩
    · exact absurd (steps_frame hl h s) (no _ _)
  · rcases local_run rm hl with ⟨os2, m', c', e2, s2, r2⟩ | ⟨e2, no2⟩
    · obtain ⟨a', s', -⟩ := steps_unframe hl h s2
      exact absurd s' (no _ _)
    · exact .inr ⟨_, e2, e⟩

/-- C145: two histories of which each is given no item of the other one and no item of the pairs the other one is about return the
same, call by call, whichever comes first, and leave the same pairs.  It is enough to know that each of them alone runs without a
panic. -/
theorem C145_cycle_commute (hm : Reachable m) (hab : Shows m (a ++ b)) {ops ops₂ : List (Op L R)}
    (hl : ∀ op ∈ ops, op.Local) (hl₂ : ∀ op ∈ ops₂, op.Local)
    (h : ∀ op ∈ ops, op.Apart b) (h₂ : ∀ op ∈ ops₂, op.Apart a)
    (hx : ∀ op ∈ ops, ∀ op₂ ∈ ops₂, (∀ x ∈ op.lefts, ∀ y ∈ op₂.lefts, (x == y) = false) ∧
      ∀ x ∈ op.rights, ∀ y ∈ op₂.rights, (x == y) = false)
    {os os₂ : List (Out L R)} {m₁ m₂ : CycleMap L R} (e : m.run ops = .ok (os, m₁)) (e₂ : m.run ops₂ = .ok (os₂, m₂)) :
    ∃ m₁₂ m₂₁ c, m.run (ops ++ ops₂) = .ok (os ++ os₂, m₁₂) ∧ m.run (ops₂ ++ ops) = .ok (os₂ ++ os, m₂₁) ∧
      Shows m₁₂ c ∧ Shows m₂₁ c := by
  have rm := hm.repr_of_shows hab
  have rm' : Repr m (b ++ a) := rm.perm List.perm_append_comm
  have s : ∃ a', Steps a ops os a' := by
    rcases local_run rm hl with ⟨os', m', c', e', s, r⟩ | ⟨e', -⟩
    · rw [e] at e'; cases e'
      obtain ⟨a', s, -⟩ := steps_unframe hl h s
      exact ⟨a', s⟩
    · rw [e] at e'; cases e'
  have s₂ : ∃ b', Steps b ops₂ os₂ b' := by
    rcases local_run rm' hl₂ with ⟨os', m', c', e', s, r⟩ | ⟨e', -⟩
    · rw [e₂] at e'; cases e'
      obtain ⟨b', s, -⟩ := steps_unframe hl₂ h₂ s
      exact ⟨b', s⟩
    · rw [e₂] at e'; cases e'
  obtain ⟨a', s⟩ := s
  obtain ⟨b', s₂⟩ := s₂
  have h₂' : ∀ op ∈ ops₂, op.Apart a' := by
    refine fun op ho => ⟨fun x hx' p hp => ?_, fun y hy' p hp => ?_⟩
    · rcases (steps_items hl s hp).1 with hi | ⟨op', ho', hi⟩
      · obtain ⟨q, hq, e⟩ := List.mem_map.1 hi
        rw [← e]; exact (h₂ op ho).1 x hx' q hq
      · rw [BEq.comm]; exact (hx op' ho' op ho).1 _ hi _ hx'
    · rcases (steps_items hl s hp).2 with hi | ⟨op', ho', hi⟩
      · obtain ⟨q, hq, e⟩ := List.mem_map.1 hi
        rw [← e]; exact (h₂ op ho).2 y hy' q hq
      · rw [BEq.comm]; exact (hx op' ho' op ho).2 _ hi _ hy'
  have h' : ∀ op ∈ ops, op.Apart b' := by
    refine fun op ho => ⟨fun x hx' p hp => ?_, fun y hy' p hp => ?_⟩
    · rcases (steps_items hl₂ s₂ hp).1 with hi | ⟨op', ho', hi⟩
      · obtain ⟨q, hq, e⟩ := List.mem_map.1 hi
        rw [← e]; exact (h op ho).1 x hx' q hq
      · exact (hx op ho op' ho').1 _ hx' _ hi
    · rcases (steps_items hl₂ s₂ hp).2 with hi | ⟨op', ho', hi⟩
      · obtain ⟨q, hq, e⟩ := List.mem_map.1 hi
        rw [← e]; exact (h op ho).2 y hy' q hq
      · exact (hx op ho op' ho').2 _ hy' _ hi
  obtain ⟨m₁', e1, r1⟩ := run_of_steps rm hl h s
  obtain ⟨m₁₂, e12, r12⟩ := run_of_steps (r1.perm List.perm_append_comm) hl₂ h₂' s₂
  obtain ⟨m₂', e2, r2⟩ := run_of_steps rm' hl₂ h₂ s₂
  obtain ⟨m₂₁, e21, r21⟩ := run_of_steps (r2.perm List.perm_append_comm) hl h' s
  exact ⟨m₁₂, m₂₁, a' ++ b', run_then e1 e12, run_then e2 e21, (r12.perm List.perm_append_comm).shows, r21.shows⟩

end Maps

section Examples
open Demo
variable [RawImpl] [LawfulRaw]

/-- calls about 2, 5 and 20, 50 do the same in a map that holds (2, 20) only, with another hash function -/
example : ∃ n : CycleMap Nat Nat, n.hb = spreadHash ∧
    ((∃ os m' n' a', demo.run [.removeViaLeft 2, .insert 5 20, .swapRight 20 50, .getRight 5] = .ok (os, m') ∧
      n.run [.removeViaLeft 2, .insert 5 20, .swapRight 20 50, .getRight 5] = .ok (os, n') ∧
      Shows m' (a' ++ [(3, 30), (1, 10)]) ∧ Shows n' a') ∨
    ∃ e, demo.run [.removeViaLeft 2, .insert 5 20, .swapRight 20 50, .getRight 5] = .error e ∧
      n.run [.removeViaLeft 2, .insert 5 20, .swapRight 20 50, .getRight 5] = .error e) := by
  obtain ⟨n, e, h, hb, -⟩ := insert_refines (withHasher_repr (L := Nat) (R := Nat) spreadHash) 2 20
  have hn : Reachable n := .step (op := .insert 2 20) (.new spreadHash) (by simp) (by simp)
    (by simp only [exec, e, bind, Except.bind, pure, Except.pure]; rfl)
  refine ⟨n, hb, C145_cycle_frame demo_reachable (a := [(2, 20)]) ?_ hn h.shows (by simp [Op.Local]) ?_⟩
  · exact ((demo_reachable.repr_of_shows demo_shows).perm (.swap _ _ _)).shows
  · simp [Op.Apart, Op.lefts, Op.rights]

/-- removing 1 and renaming 20 to 50 can be done in either order -/
example : ∃ os os₂ m₁₂ m₂₁ c, demo.run ([.removeViaLeft 1] ++ [.swapRight 20 50]) = .ok (os ++ os₂, m₁₂) ∧
    demo.run ([.swapRight 20 50] ++ [.removeViaLeft 1]) = .ok (os₂ ++ os, m₂₁) ∧ Shows m₁₂ c ∧ Shows m₂₁ c := by
  have r := demo_reachable.repr_of_shows demo_shows
  obtain ⟨os, m₁, -, e, -⟩ := run_simulates r (ops := [.removeViaLeft 1]) (by simp [SafeRun, Safe])
  obtain ⟨os₂, m₂, -, e₂, -⟩ := run_simulates r (ops := [.swapRight 20 50]) (by simp [SafeRun, Safe])
  obtain ⟨m₁₂, m₂₁, c, h⟩ := C145_cycle_commute demo_reachable (a := [(1, 10)]) (b := [(3, 30), (2, 20)])
    (r.perm ((List.perm_append_comm (l₁ := [(3, 30), (2, 20)])))).shows (by simp [Op.Local]) (by simp [Op.Local])
    (by simp [Op.Apart, Op.lefts, Op.rights]) (by simp [Op.Apart, Op.lefts, Op.rights]) (by simp [Op.lefts, Op.rights]) e e₂
  exact ⟨os, os₂, m₁₂, m₂₁, c, h⟩

end Examples
end Verif.CycleMap
