import Verif.CycleMap.Simulation
/-! Facts about one-to-one lists of pairs, and about determinism of the list machine. -/
set_option linter.unusedSectionVars false
set_option linter.unusedSimpArgs false
namespace Verif.CycleSpec
open OptionalPair CycleMap
variable {L R : Type} [BEq L] [BEq R] [EquivBEq L] [EquivBEq R]
variable {c d : List (L × R)}

theorem findL_mem {l : L} {p : L × R} (h : findL c l = some p) : p ∈ c ∧ (l == p.1) = true :=
  ⟨List.mem_of_find?_eq_some h, by simpa using List.find?_some h⟩

theorem findR_mem {r : R} {p : L × R} (h : findR c r = some p) : p ∈ c ∧ (r == p.2) = true :=
  ⟨List.mem_of_find?_eq_some h, by simpa using List.find?_some h⟩

theorem OneToOne.perm' (h : OneToOne c) (hp : c.Perm d) : OneToOne d :=
  hp.pairwise h (fun {a b} hab => ⟨by rw [BEq.comm]; exact hab.1, by rw [BEq.comm]; exact hab.2⟩)

theorem OneToOne.unique (h : OneToOne c) {p q : L × R} (hp : p ∈ c) (hq : q ∈ c)
    (he : (p.1 == q.1) = true ∨ (p.2 == q.2) = true) : p = q := by
  obtain ⟨d, hd⟩ := perm_cons_of_mem hp
  rcases List.mem_cons.1 (hd.mem_iff.1 hq) with rfl | hm
  · rfl
  · have := (List.pairwise_cons.1 (OneToOne.perm' h hd)).1 q hm
    rcases he with he | he
    · rw [this.1] at he; cases he
    · rw [this.2] at he; cases he

theorem findL_of_mem (h : OneToOne c) {p : L × R} (hp : p ∈ c) {l : L} (hl : (l == p.1) = true) :
    findL c l = some p := by
  cases hf : findL c l with
  | none => rw [findL, List.find?_eq_none] at hf; exact absurd hl (hf p hp)
  | some q =>
    have hq := findL_mem hf
    rw [h.unique hq.1 hp (.inl (BEq.trans (BEq.symm hq.2) hl))]

theorem findR_of_mem (h : OneToOne c) {p : L × R} (hp : p ∈ c) {r : R} (hr : (r == p.2) = true) :
    findR c r = some p := by
  cases hf : findR c r with
  | none => rw [findR, List.find?_eq_none] at hf; exact absurd hr (hf p hp)
  | some q =>
    have hq := findR_mem hf
    rw [h.unique hq.1 hp (.inr (BEq.trans (BEq.symm hq.2) hr))]

theorem findL_isSome_eq (l : L) : (findL c l).isSome = c.any fun p => l == p.1 := by
  rw [findL, Bool.eq_iff_iff, List.find?_isSome, List.any_eq_true]

theorem findR_isSome_eq (r : R) : (findR c r).isSome = c.any fun p => r == p.2 := by
  rw [findR, Bool.eq_iff_iff, List.find?_isSome, List.any_eq_true]

/-! ### Equality -/

/-- every pair of `c` is, up to `==`, a pair of `d` -/
def Sub (c d : List (L × R)) : Prop := ∀ p ∈ c, ∃ q ∈ d, (p.1 == q.1) = true ∧ (p.2 == q.2) = true

theorem sub_iff : (c.all fun q => hasPair d q.1 q.2) = true ↔ Sub c d := by
  simp [Sub, hasPair, List.all_eq_true, List.any_eq_true]

/-- pigeonhole -/
theorem Sub.symm_of_length (h : OneToOne c) (hs : Sub c d) (hl : d.length ≤ c.length) : Sub d c := by
  induction c generalizing d with
  | nil =>
    have : d = [] := List.eq_nil_of_length_eq_zero (by simpa using hl)
    subst this; intro p hp; cases hp
  | cons p c ih =>
    have ⟨h1, h2⟩ := List.pairwise_cons.1 h
    obtain ⟨q, hq, hq1, hq2⟩ := hs p (by simp)
    obtain ⟨d', hd⟩ := perm_cons_of_mem hq
    have hs' : Sub c d' := by
      intro x hx
      obtain ⟨y, hy, hy1, hy2⟩ := hs x (List.mem_cons_of_mem _ hx)
      rcases List.mem_cons.1 (hd.mem_iff.1 hy) with rfl | hm
      · have h3 := (h1 x hx).1
        have : (p.1 == x.1) = true := BEq.trans hq1 (BEq.symm hy1)
        rw [h3] at this; cases this
      · exact ⟨y, hm, hy1, hy2⟩
    have := ih h2 hs' (by have := hd.length_eq; simp at this hl; omega)
    intro y hy
    rcases List.mem_cons.1 (hd.mem_iff.1 hy) with rfl | hm
    · exact ⟨p, by simp, BEq.symm hq1, BEq.symm hq2⟩
    · obtain ⟨z, hz, h⟩ := this y hm
      exact ⟨z, List.mem_cons_of_mem _ hz, h⟩

theorem Sub.length_le (h : OneToOne c) (hs : Sub c d) : c.length ≤ d.length := by
  induction c generalizing d with
  | nil => simp
  | cons p c ih =>
    have ⟨h1, h2⟩ := List.pairwise_cons.1 h
    obtain ⟨q, hq, hq1, hq2⟩ := hs p (by simp)
    obtain ⟨d', hd⟩ := perm_cons_of_mem hq
    have hs' : Sub c d' := by
      intro x hx
      obtain ⟨y, hy, hy1, hy2⟩ := hs x (List.mem_cons_of_mem _ hx)
      rcases List.mem_cons.1 (hd.mem_iff.1 hy) with rfl | hm
      · have h3 := (h1 x hx).1
        have : (p.1 == x.1) = true := BEq.trans hq1 (BEq.symm hy1)
        rw [h3] at this; cases this
      · exact ⟨y, hm, hy1, hy2⟩
    have := ih h2 hs'
    have := hd.length_eq
    simp at this ⊢; omega

theorem Sub.refl (c : List (L × R)) : Sub c c := fun p hp => ⟨p, hp, BEq.rfl, BEq.rfl⟩

theorem Sub.trans {e : List (L × R)} (h1 : Sub c d) (h2 : Sub d e) : Sub c e := by
  intro p hp
  obtain ⟨q, hq, a, b⟩ := h1 p hp
  obtain ⟨r, hr, a', b'⟩ := h2 q hq
  exact ⟨r, hr, BEq.trans a a', BEq.trans b b'⟩

/-! ### Sequences of insertions -/

/-- `x` and `y` have a left or a right item in common -/
def conflicts (x y : L × R) : Bool := y.1 == x.1 || y.2 == x.2

/-- the pairs of a sequence that no later pair conflicts with -/
def survivors : List (L × R) → List (L × R)
  | [] => []
  | x :: xs => if xs.any (conflicts x) then survivors xs else x :: survivors xs

theorem insertAll_perm (xs c : List (L × R)) :
    (insertAll c xs).Perm (survivors xs ++ c.filter fun p => !xs.any (conflicts p)) := by
  induction xs generalizing c with
  | nil => simp [insertAll, survivors]; rw [List.filter_eq_self.2]; simp
  | cons x xs ih =>
    have e : insertAll c (x :: xs) = insertAll (x :: c.filter fun p => !(x.1 == p.1) && !(x.2 == p.2)) xs := rfl
    rw [e]
    refine (ih _).trans ?_
    have ef : ((c.filter fun p => !(x.1 == p.1) && !(x.2 == p.2)).filter fun p => !xs.any (conflicts p)) =
        c.filter fun p => !(x :: xs).any (conflicts p) := by
      rw [List.filter_filter]
      congr 1; funext p
      simp only [List.any_cons, conflicts, Bool.not_or, Bool.and_comm]
    rw [survivors]
    cases hx : xs.any (conflicts x) with
    | true => rw [List.filter_cons_of_neg (by simp only [hx]; simp), ef]; exact .refl _
    | false =>
      rw [List.filter_cons_of_pos (by simp only [hx]; simp), ef]
      exact List.perm_middle

theorem insertAll_perm_start {xs c d : List (L × R)} (h : c.Perm d) : (insertAll c xs).Perm (insertAll d xs) :=
  (insertAll_perm xs c).trans (((h.filter _).append_left _).trans (insertAll_perm xs d).symm)

/-- a one-to-one sequence survives inserting -/
theorem survivors_of_oneToOne (h : OneToOne c) : survivors c = c := by
  induction c with
  | nil => rfl
  | cons x xs ih =>
    have ⟨h1, h2⟩ := List.pairwise_cons.1 h
    rw [survivors, ih h2, if_neg]
    simp only [List.any_eq_true, conflicts, not_exists, not_and]
    intro y hy
    have := h1 y hy
    rw [BEq.comm (a := y.1), BEq.comm (a := y.2), this.1, this.2]; simp

/-! ### Determinism up to order -/

/-- two results are the same up to the order of visited items -/
def SameOut : Out L R → Out L R → Prop
  | .lefts a, .lefts b => a.Perm b
  | .rights a, .rights b => a.Perm b
  | .pairs a, .pairs b => a.Perm b
  | a, b => a = b

/-- the answer of the closure depends on the pair only -/
def Pure {σ : Type} (f : σ → L → R → Bool × σ) : Prop := ∃ g : L → R → Bool, ∀ s l r, (f s l r).1 = g l r

/-- calls whose result does not depend on the visiting order -/
def OrderFree : Op L R → Prop
  | .drainFilter .. => False
  | .drainFilterAll _ f _ => Pure f
  | .retain _ f _ => Pure f
  | _ => True

theorem split_pure {σ α : Type} {f : σ → α → Bool × σ} {g : α → Bool} (h : ∀ s a, (f s a).1 = g a)
    (as : List α) (s : σ) :
    (split f as s).1 = as.filter g ∧ (split f as s).2.1 = as.filter fun a => !g a := by
  induction as generalizing s with
  | nil => exact ⟨rfl, rfl⟩
  | cons a as ih =>
    have ha := h s a
    simp only [split]
    cases hf : f s a with
    | mk b s' =>
      rw [hf] at ha
      cases b <;> simp [← ha, ih s', List.filter_cons]

theorem SameOut.refl (o : Out L R) : SameOut o o := by
  cases o <;> simp [SameOut]

theorem step_det {op : Op L R} (hd : OrderFree op) {o o' : Out L R} {c₁ c₂ : List (L × R)}
    (h : Step c op o c₁) (h' : Step c op o' c₂) : SameOut o o' ∧ c₁.Perm c₂ := by
  cases op <;> simp only [Step] at h h'
  case iter | iterLeft | iterRight =>
    obtain ⟨d, hd, rfl, rfl⟩ := h
    obtain ⟨d', hd', rfl, rfl⟩ := h'
    exact ⟨hd.trans hd'.symm, .refl _⟩
  case drain n =>
    obtain ⟨_, d, hd, rfl, rfl⟩ := h
    obtain ⟨_, d', hd', rfl, rfl⟩ := h'
    exact ⟨hd.trans hd'.symm, .refl _⟩
  case drainFilter => exact hd.elim
  case drainFilterAll σ f s =>
    obtain ⟨g, hg⟩ := hd
    obtain ⟨d, hd, rfl, rfl⟩ := h
    obtain ⟨d', hd', rfl, rfl⟩ := h'
    have e := split_pure (f := fun s (p : L × R) => f s p.1 p.2) (g := fun p => g p.1 p.2) (fun s p => hg s p.1 p.2) d s
    have e' := split_pure (f := fun s (p : L × R) => f s p.1 p.2) (g := fun p => g p.1 p.2) (fun s p => hg s p.1 p.2) d' s
    rw [e.1, e.2, e'.1, e'.2]
    exact ⟨(hd.trans hd'.symm).filter _, (hd.trans hd'.symm).filter _⟩
  case retain σ f s =>
    obtain ⟨g, hg⟩ := hd
    obtain ⟨d, hd, rfl, rfl⟩ := h
    obtain ⟨d', hd', rfl, rfl⟩ := h'
    have e := split_pure (f := fun s (p : L × R) => f s p.1 p.2) (g := fun p => g p.1 p.2) (fun s p => hg s p.1 p.2) d s
    have e' := split_pure (f := fun s (p : L × R) => f s p.1 p.2) (g := fun p => g p.1 p.2) (fun s p => hg s p.1 p.2) d' s
    rw [e.1, e'.1]
    exact ⟨.refl _, (hd.trans hd'.symm).filter _⟩
  case swapLeftChecked | swapLeftOrInsert | swapRightChecked =>
    split at h
    · rename_i hc
      rw [if_pos hc] at h'
      obtain ⟨rfl, rfl⟩ := h; obtain ⟨rfl, rfl⟩ := h'
      exact ⟨.refl _, .refl _⟩
    · rename_i hc
      rw [if_neg hc] at h'
      obtain ⟨rfl, rfl⟩ := h; obtain ⟨rfl, rfl⟩ := h'
      exact ⟨.refl _, .refl _⟩
  case swapRightOrInsert =>
    split at h
    · rename_i hc
      rw [if_pos hc] at h'
      obtain ⟨rfl, rfl⟩ := h; obtain ⟨rfl, rfl⟩ := h'
      exact ⟨.refl _, .refl _⟩
    · rename_i hc
      rw [if_neg hc] at h'
      obtain ⟨_, rfl, rfl⟩ := h; obtain ⟨_, rfl, rfl⟩ := h'
      exact ⟨.refl _, .refl _⟩
  all_goals
    obtain ⟨rfl, rfl⟩ := h; obtain ⟨rfl, rfl⟩ := h'
    exact ⟨.refl _, .refl _⟩

end Verif.CycleSpec
