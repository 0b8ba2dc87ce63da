import Verif.PartialMap.Simulation
import Verif.CycleMap.SpecLemmas
import Verif.Instances
/-! Facts about lists of entries, and about determinism of the list machine. -/
set_option linter.unusedSectionVars false
set_option linter.unusedSimpArgs false
namespace Verif.PartialSpec
open OptionalPair PartialMap
open CycleSpec (split split_pure)
variable {L R : Type} [BEq L] [BEq R] [EquivBEq L] [EquivBEq R]
variable {c d : List (OptionalPair L R)}

/-! ### Equality -/

/-- the two entries are equal up to `==` of the items -/
def Same : OptionalPair L R → OptionalPair L R → Prop
  | someLeft a, someLeft b => (a == b) = true
  | someRight a, someRight b => (a == b) = true
  | someBoth a b, someBoth a' b' => (a == a') = true ∧ (b == b') = true
  | neither, neither => True
  | _, _ => False

/-- every entry of `c` is, up to `==`, an entry of `d` -/
def Sub (c d : List (OptionalPair L R)) : Prop := ∀ e ∈ c, ∃ e' ∈ d, Same e e'

theorem Same.refl (e : OptionalPair L R) : Same e e := by cases e <;> simp [Same]

theorem Same.symm {e e' : OptionalPair L R} (h : Same e e') : Same e' e := by
  cases e <;> cases e' <;> simp only [Same] at h ⊢
  · exact BEq.symm h
  · exact BEq.symm h
  · exact ⟨BEq.symm h.1, BEq.symm h.2⟩

theorem Same.hasL {e e' : OptionalPair L R} (h : Same e e') (l : L) : hasL l e = hasL l e' := by
  cases e <;> cases e' <;> simp only [Same] at h <;> simp only [PartialSpec.hasL]
  · exact BEq.congr_right h
  · exact BEq.congr_right h.1

theorem Same.hasR {e e' : OptionalPair L R} (h : Same e e') (r : R) : hasR r e = hasR r e' := by
  cases e <;> cases e' <;> simp only [Same] at h <;> simp only [PartialSpec.hasR]
  · exact BEq.congr_right h
  · exact BEq.congr_right h.2

theorem OneToOne.uniqueL (h : OneToOne c) {e e' : OptionalPair L R} (he : e ∈ c) (he' : e' ∈ c) {l : L}
    (hl : hasL l e = true) (hl' : hasL l e' = true) : e = e' :=
  letI := tidyRaw; haveI := tidyRaw_lawful
  Option.some.inj ((mem_findL h he hl).symm.trans (mem_findL h he' hl'))

theorem OneToOne.uniqueR (h : OneToOne c) {e e' : OptionalPair L R} (he : e ∈ c) (he' : e' ∈ c) {r : R}
    (hr : hasR r e = true) (hr' : hasR r e' = true) : e = e' :=
  letI := tidyRaw; haveI := tidyRaw_lawful
  Option.some.inj ((mem_findR h he hr).symm.trans (mem_findR h he' hr'))

/-- pigeonhole -/
theorem length_le_of_sub {T : Type} [BEq T] [EquivBEq T] {xs ys : List T} (h : xs.Pairwise fun a b => (a == b) = false)
    (hs : ∀ x ∈ xs, ∃ y ∈ ys, (x == y) = true) : xs.length ≤ ys.length := by
  induction xs generalizing ys with
  | nil => simp
  | cons x xs ih =>
    have ⟨h1, h2⟩ := List.pairwise_cons.1 h
    obtain ⟨y, hy, hxy⟩ := hs x (by simp)
    obtain ⟨ys', hp⟩ := perm_cons_of_mem hy
    have := ih (ys := ys') h2 (fun z hz => by
      obtain ⟨w, hw, hzw⟩ := hs z (List.mem_cons_of_mem _ hz)
      rcases List.mem_cons.1 (hp.mem_iff.1 hw) with rfl | hm
      · have h3 := h1 z hz
        rw [BEq.trans hxy (BEq.symm hzw)] at h3; cases h3
      · exact ⟨w, hm, hzw⟩)
    rw [hp.length_eq]; simpa using this

theorem lefts_apart (h : OneToOne c) : (c.filterMap leftOf).Pairwise fun a b => (a == b) = false := by
  rw [List.pairwise_filterMap]
  refine h.1.imp fun {x y} hd a ha b hb => ?_
  have := hd.1 a ha
  cases y <;> simp_all [leftOf, hasL]

theorem Sub.lefts (h : Sub c d) : ∀ x ∈ c.filterMap leftOf, ∃ y ∈ d.filterMap leftOf, (x == y) = true := by
  intro x hx
  obtain ⟨e, he, hex⟩ := List.mem_filterMap.1 hx
  obtain ⟨e', he', hs⟩ := h e he
  cases e <;> cases e' <;> simp only [Same] at hs <;> simp only [leftOf, Option.some.injEq, reduceCtorEq] at hex
  · subst hex; exact ⟨_, List.mem_filterMap.2 ⟨_, he', rfl⟩, hs⟩
  · subst hex; exact ⟨_, List.mem_filterMap.2 ⟨_, he', rfl⟩, hs.1⟩

/-! ### Sequences of insertions -/

/-- `y` has an item of `x` -/
def clash (y x : OptionalPair L R) : Bool :=
  (match leftOf y with | some l => hasL l x | none => false) || (match rightOf y with | some r => hasR r x | none => false)

theorem clash_iff {y x : OptionalPair L R} : clash y x = false ↔ Disj y x := by
  unfold clash Disj
  cases leftOf y <;> cases rightOf y <;> simp

/-- the element of a sequence as an entry, if it is one -/
def real (x : OptionalPair L R) : List (OptionalPair L R) := match x with | neither => [] | e => [e]

theorem insertEntry_eq (c : List (OptionalPair L R)) (x : OptionalPair L R) :
    insertEntry c x = real x ++ c.filter fun e => !clash x e := by
  cases x with
  | neither => simp [insertEntry, real, clash, leftOf, rightOf]; exact (List.filter_eq_self.2 (by simp)).symm
  | someLeft l => simp [insertEntry, insertLeft, real, clash, leftOf, rightOf, eraseL]
  | someRight r => simp [insertEntry, insertRight, real, clash, leftOf, rightOf, eraseR]
  | someBoth l r => simp [insertEntry, PartialSpec.insert, real, clash, leftOf, rightOf, others, Bool.not_or]

/-- the elements of a sequence that no later element shares an item with -/
def survivors : List (OptionalPair L R) → List (OptionalPair L R)
  | [] => []
  | x :: xs => if xs.any (clash · x) then survivors xs else real x ++ survivors xs

theorem insertAll_perm (xs c : List (OptionalPair L R)) :
    (insertAll c xs).Perm (survivors xs ++ c.filter fun e => !xs.any (clash · e)) := by
  induction xs generalizing c with
  | nil => simp [insertAll, survivors]; rw [List.filter_eq_self.2]; simp
  | cons x xs ih =>
    have e : insertAll c (x :: xs) = insertAll (insertEntry c x) xs := rfl
    rw [e, insertEntry_eq]
    refine (ih _).trans ?_
    have ef : ((c.filter fun p => !clash x p).filter fun e => !xs.any (clash · e)) =
        c.filter fun e => !(x :: xs).any (clash · e) := by
      rw [List.filter_filter]
      congr 1; funext p
      simp only [List.any_cons, Bool.not_or, Bool.and_comm]
    rw [List.filter_append, ef, survivors]
    have hreal : ∀ b, xs.any (clash · x) = b → (real x).filter (fun e => !xs.any (clash · e)) = if b then [] else real x := by
      intro b hb
      cases b with
      | true =>
        rw [if_pos rfl, List.filter_eq_nil_iff]
        intro a ha
        cases x <;> simp [real] at ha <;> subst ha <;> simpa using hb
      | false =>
        rw [if_neg (by simp), List.filter_eq_self]
        intro a ha
        cases x <;> simp [real] at ha <;> subst ha <;> simpa using hb
    rw [hreal _ rfl]
    cases hx : xs.any (clash · x) with
    | true => simp
    | false =>
      rw [if_neg (by simp), if_neg (by simp), ← List.append_assoc]
      exact List.perm_append_comm.append_right _

theorem insertAll_perm_start {xs : List (OptionalPair L R)} (h : c.Perm d) : (insertAll c xs).Perm (insertAll d xs) :=
  (insertAll_perm xs c).trans (((h.filter _).append_left _).trans (insertAll_perm xs d).symm)

theorem mem_real {x p : OptionalPair L R} : p ∈ real x ↔ x = p ∧ p ≠ neither := by
  cases x <;> simp [real]
  · intro h; exact h.symm
  all_goals
    constructor
    · rintro rfl; simp
    · exact fun h => h.1.symm

theorem mem_survivors {xs : List (OptionalPair L R)} {p : OptionalPair L R} :
    p ∈ survivors xs ↔ p ≠ neither ∧ ∃ ys zs, xs = ys ++ p :: zs ∧ ∀ z ∈ zs, Disj z p := by
  induction xs with
  | nil => simp [survivors]
  | cons x xs ih =>
    have hx : (p ≠ neither ∧ ∃ ys zs, x :: xs = ys ++ p :: zs ∧ ∀ z ∈ zs, Disj z p) ↔
        ((x = p ∧ p ≠ neither) ∧ ∀ z ∈ xs, Disj z p) ∨ p ∈ survivors xs := by
      rw [ih]
      constructor
      · rintro ⟨hn, ys, zs, e, h⟩
        cases ys with
        | nil => cases e; exact .inl ⟨⟨rfl, hn⟩, h⟩
        | cons y ys => cases e; exact .inr ⟨hn, ys, zs, rfl, h⟩
      · rintro (⟨⟨rfl, hn⟩, h⟩ | ⟨hn, ys, zs, rfl, h⟩)
        · exact ⟨hn, [], xs, rfl, h⟩
        · exact ⟨hn, x :: ys, zs, rfl, h⟩
    rw [hx, survivors]
    have hc : xs.any (clash · x) = true ↔ ¬ ∀ z ∈ xs, Disj z x := by
      rw [List.any_eq_true]
      constructor
      · rintro ⟨z, hz, h⟩ hn
        rw [clash_iff.2 (hn z hz)] at h; cases h
      · intro h
        apply Classical.byContradiction
        intro hn
        apply h
        intro z hz
        have : ¬ clash z x = true := fun h => hn ⟨z, hz, h⟩
        exact clash_iff.1 (by simpa using this)
    split
    · rename_i h
      rw [hc] at h
      constructor
      · exact .inr
      · rintro (⟨⟨rfl, _⟩, h'⟩ | h')
        · exact absurd h' h
        · exact h'
    · rename_i h
      rw [hc, Classical.not_not] at h
      rw [List.mem_append, mem_real]
      constructor
      · rintro (⟨rfl, hn⟩ | h')
        · exact .inl ⟨⟨rfl, hn⟩, h⟩
        · exact .inr h'
      · rintro (⟨h', _⟩ | h')
        · exact .inl h'
        · exact .inr h'

/-! ### Determinism up to order -/

/-- two results are the same up to the order of visited items -/
def SameOut : Out L R → Out L R → Prop
  | .lefts a, .lefts b => a.Perm b
  | .rights a, .rights b => a.Perm b
  | .pairs a, .pairs b => a.Perm b
  | .entries a, .entries b => a.Perm b
  | a, b => a = b

/-- the answer of the closure depends on the entry only -/
def Pure {σ α : Type} (f : σ → α → Bool × σ) : Prop := ∃ g : α → Bool, ∀ s a, (f s a).1 = g a

/-- calls whose result does not depend on the visiting order -/
def OrderFree : Op L R → Prop
  | .drain n => n = 0
  | .drainFilter _ f _ n => Pure f ∧ n = 0
  | .retain _ f _ => Pure f
  | .retainPaired _ f _ => Pure fun s (p : L × R) => f s p.1 p.2
  | .retainUnpaired _ f _ => Pure f
  | _ => True

theorem SameOut.refl (o : Out L R) : SameOut o o := by
  cases o <;> simp [SameOut]

theorem perm_parts {d us : List (OptionalPair L R)} (h : (d ++ us).Perm c) (h1 : ∀ e ∈ d, (leftOf e).isSome = true)
    (h2 : ∀ e ∈ us, leftOf e = none) :
    d.Perm (c.filter fun e => (leftOf e).isSome) ∧ us.Perm (c.filter fun e => !(leftOf e).isSome) := by
  constructor
  · have := h.filter fun e => (leftOf e).isSome
    rwa [List.filter_append, List.filter_eq_self.2 h1, List.filter_eq_nil_iff.2 (fun e he => by simp [h2 e he]),
      List.append_nil] at this
  · have := h.filter fun e => !(leftOf e).isSome
    rwa [List.filter_append, List.filter_eq_nil_iff.2 (fun e he => by simp [h1 e he]),
      List.filter_eq_self.2 (fun e he => by simp [h2 e he]), List.nil_append] at this

theorem step_det {op : Op L R} (hd : OrderFree op) {o o' : Out L R} {c₁ c₂ : List (OptionalPair L R)}
    (h : Step c op o c₁) (h' : Step c op o' c₂) : SameOut o o' ∧ c₁.Perm c₂ := by
  cases op <;> simp only [Step] at h h'
  case iter | iterLeft | iterRight | iterPaired | iterUnpaired =>
    obtain ⟨d, hd, rfl, rfl⟩ := h
    obtain ⟨d', hd', rfl, rfl⟩ := h'
    exact ⟨hd.trans hd'.symm, .refl _⟩
  case drain n =>
    obtain ⟨_, _, _, _, _, rfl, rfl⟩ := h
    obtain ⟨_, _, _, _, _, rfl, rfl⟩ := h'
    obtain rfl : n = 0 := hd
    exact ⟨.refl _, .refl _⟩
  case drainFilter σ f s n =>
    obtain ⟨⟨g, hg⟩, rfl⟩ := hd
    obtain ⟨d1, us, d2, h1, h2, h3, h4, h5, rfl, rfl⟩ := h
    obtain ⟨d1', us', d2', h1', h2', h3', h4', h5', rfl, rfl⟩ := h'
    refine ⟨.refl _, ?_⟩
    rw [(split_pure hg d1 s).2] at h4 ⊢
    rw [(split_pure hg d1' s).2] at h4' ⊢
    rw [(split_pure (f := fun s e => f s (asRight e)) (g := fun e => g (asRight e)) (fun s e => hg s _) d2 _).2,
      (split_pure (f := fun s e => f s (asRight e)) (g := fun e => g (asRight e)) (fun s e => hg s _) d2' _).2]
    have p1 := perm_parts h1 h2 h3
    have p2 := perm_parts h1' h2' h3'
    have hd : d1.Perm d1' := p1.1.trans p2.1.symm
    have hu : us.Perm us' := p1.2.trans p2.2.symm
    have key : ∀ {d2 k us : List (OptionalPair L R)}, (d2 ++ k.filter fun e => (rightOf e).isNone).Perm (k ++ us) →
        (∀ e ∈ d2, (rightOf e).isSome = true) → d2.Perm ((k ++ us).filter fun e => (rightOf e).isSome) := by
      intro d2 k us h h5
      have := h.filter fun e => (rightOf e).isSome
      rwa [List.filter_append, List.filter_eq_self.2 h5, List.filter_filter, List.filter_eq_nil_iff.2
        (fun e he => by cases rightOf e <;> simp), List.append_nil] at this
    have hd2 : d2.Perm d2' :=
      (key h4 h5).trans ((((hd.filter _).append hu).filter _).trans (key h4' h5').symm)
    exact (hd2.filter _).append ((hd.filter _).filter _)
  case retain σ f s =>
    obtain ⟨g, hg⟩ := hd
    obtain ⟨d1, us, h1, h2, h3, rfl, rfl⟩ := h
    obtain ⟨d1', us', h1', h2', h3', rfl, rfl⟩ := h'
    refine ⟨.refl _, ?_⟩
    rw [(split_pure hg d1 s).2, (split_pure hg d1' s).2]
    have p1 := perm_parts h1 h2 h3
    have p2 := perm_parts h1' h2' h3'
    exact ((p1.1.trans p2.1.symm).filter _).append (p1.2.trans p2.2.symm)
  case retainPaired σ f s =>
    obtain ⟨g, hg⟩ := hd
    obtain ⟨d, hd, rfl, rfl⟩ := h
    obtain ⟨d', hd', rfl, rfl⟩ := h'
    refine ⟨.refl _, ?_⟩
    rw [(split_pure hg d s).2, (split_pure hg d' s).2]
    exact (((hd.trans hd'.symm).filter _).map _).append_right _
  case retainUnpaired σ f s =>
    obtain ⟨g, hg⟩ := hd
    obtain ⟨d, hd, rfl, rfl⟩ := h
    obtain ⟨d', hd', rfl, rfl⟩ := h'
    refine ⟨.refl _, ?_⟩
    rw [(split_pure hg d s).2, (split_pure hg d' s).2]
    exact ((hd.trans hd'.symm).filter _).append_right _
  case swapLeftChecked | swapRightChecked =>
    split at h
    · rename_i hc
      rw [if_pos hc] at h'
      obtain ⟨rfl, rfl⟩ := h; obtain ⟨rfl, rfl⟩ := h'
      exact ⟨.refl _, .refl _⟩
    · rename_i hc
      rw [if_neg hc] at h'
      obtain ⟨rfl, rfl⟩ := h; obtain ⟨rfl, rfl⟩ := h'
      exact ⟨.refl _, .refl _⟩
  case swapRightOrInsert | swapLeftOrInsert =>
    split at h
    · rename_i hc
      rw [if_pos hc] at h'
      obtain ⟨rfl, rfl⟩ := h; obtain ⟨rfl, rfl⟩ := h'
      exact ⟨.refl _, .refl _⟩
    · rename_i hc
      rw [if_neg hc] at h'
      obtain ⟨_, rfl, rfl⟩ := h; obtain ⟨_, rfl, rfl⟩ := h'
      exact ⟨.refl _, .refl _⟩
  all_goals
    obtain ⟨rfl, rfl⟩ := h; obtain ⟨rfl, rfl⟩ := h'
    exact ⟨.refl _, .refl _⟩

end Verif.PartialSpec
