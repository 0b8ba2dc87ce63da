import Verif.GroupMap.Torn
import Verif.CycleMap.SpecLemmas
import Verif.PartialMap.SpecLemmas
/-! Facts about contents of a group map, and about determinism of the list machine. -/
set_option linter.unusedSectionVars false
set_option linter.unusedSimpArgs false
namespace Verif.GroupSpec
open GroupMap
open CycleSpec (split split_pure)
open PartialSpec (Pure)
variable {L R : Type} [BEq L] [BEq R] [EquivBEq L] [EquivBEq R]
variable {c d : Contents L R}

/-- Two results are the same up to the order of visited items. -/
def SameOut : Out L R → Out L R → Prop
  | .lefts a, .lefts b => a.Perm b
  | .rights a, .rights b => a.Perm b
  | .pairs a, .pairs b => a.Perm b
  | .entries a, .entries b => a.Perm b
  | .group a, .group b => SameEntry a b
  | .leftAndGroup l a, .leftAndGroup l' b => l = l' ∧ SameEntry a b
  | .leftsOf (some a), .leftsOf (some b) => a.Perm b
  | a, b => a = b

/-- Calls whose result does not depend on the visiting order. -/
def OrderFree : Op L R → Prop
  | .retainPaired _ f _ => Pure fun s (p : L × R) => f s p.1 p.2
  | .retainUnpaired _ f _ => Pure f
  | _ => True

theorem SameEntry.refl (o : Option (List L × R)) : SameEntry o o := by
  cases o <;> simp [SameEntry]

theorem SameEntry.symm {o o' : Option (List L × R)} (h : SameEntry o o') : SameEntry o' o := by
  cases o <;> cases o' <;> simp only [SameEntry] at h ⊢
  exact ⟨h.1.symm, h.2.symm⟩

theorem SameEntry.trans {o o' o'' : Option (List L × R)} (h : SameEntry o o') (h' : SameEntry o' o'') :
    SameEntry o o'' := by
  cases o <;> cases o' <;> cases o'' <;> simp only [SameEntry] at h h' ⊢
  exact ⟨h.1.trans h'.1, h.2.trans h'.2⟩

theorem SameOut.refl (o : Out L R) : SameOut o o := by
  cases o with
  | leftsOf a => cases a <;> simp [SameOut]
  | _ => simp [SameOut, SameEntry.refl]

theorem Contents.Same.refl (c : Contents L R) : c.Same c := ⟨.refl _, .refl _⟩

theorem step_det {op : Op L R} (hd : OrderFree op) {o o' : Out L R} {c₁ c₂ : Contents L R}
    (h : Step c op o c₁) (h' : Step c op o' c₂) : SameOut o o' ∧ c₁.Same c₂ := by
  cases op <;> simp only [Step] at h h'
  case iter | iterLeft | iterRight | iterPaired | iterUnpaired =>
    obtain ⟨d, hd, rfl, rfl⟩ := h
    obtain ⟨d', hd', rfl, rfl⟩ := h'
    exact ⟨hd.trans hd'.symm, .refl _⟩
  case insertRight | remove | removeRight =>
    obtain ⟨d, hd, rfl, rfl⟩ := h
    obtain ⟨d', hd', rfl, rfl⟩ := h'
    exact ⟨hd.trans hd'.symm, .refl _⟩
  case insertRemove =>
    obtain ⟨d, hd, rfl, rfl⟩ := h
    obtain ⟨d', hd', rfl, rfl⟩ := h'
    exact ⟨⟨rfl, hd.trans hd'.symm⟩, .refl _⟩
  case getLeftIter r =>
    obtain ⟨d, hd, rfl, rfl⟩ := h
    obtain ⟨d', hd', rfl, rfl⟩ := h'
    refine ⟨?_, .refl _⟩
    cases findR _ r with
    | none => rfl
    | some _ => exact hd.trans hd'.symm
  case retainPaired σ f s =>
    obtain ⟨g, hg⟩ := hd
    obtain ⟨d, hd, rfl, rfl⟩ := h
    obtain ⟨d', hd', rfl, rfl⟩ := h'
    refine ⟨SameOut.refl _, .refl _, ?_⟩
    rw [(split_pure hg d s).2, (split_pure hg d' s).2]
    exact (hd.trans hd'.symm).filter _
  case retainUnpaired σ f s =>
    obtain ⟨g, hg⟩ := hd
    obtain ⟨d, hd, rfl, rfl⟩ := h
    obtain ⟨d', hd', rfl, rfl⟩ := h'
    refine ⟨SameOut.refl _, ?_, .refl _⟩
    simp only
    rw [(split_pure hg d s).2, (split_pure hg d' s).2]
    exact ((hd.trans hd'.symm).filter _).append_right _
  all_goals
    obtain ⟨rfl, rfl⟩ := h; obtain ⟨rfl, rfl⟩ := h'
    exact ⟨SameOut.refl _, .refl _⟩

theorem find?_perm {α : Type} {p : α → Bool} {xs ys : List α} (h : xs.Perm ys)
    (hu : ∀ a ∈ xs, ∀ b ∈ xs, p a = true → p b = true → a = b) : xs.find? p = ys.find? p := by
  cases hx : xs.find? p with
  | none =>
    rw [List.find?_eq_none] at hx
    exact (List.find?_eq_none.2 fun a ha => hx a (h.mem_iff.2 ha)).symm
  | some a =>
    have ha := List.mem_of_find?_eq_some hx
    have hpa := List.find?_some hx
    cases hy : ys.find? p with
    | none =>
      rw [List.find?_eq_none] at hy
      exact absurd hpa (hy a (h.mem_iff.1 ha))
    | some b =>
      rw [hu a ha b (h.mem_iff.2 (List.mem_of_find?_eq_some hy)) hpa (List.find?_some hy)]

/-- in a list without equal left items, a left item belongs to one pair -/
theorem unique_of_apart {A : List (L × R)} (h : A.Pairwise fun p q => (p.1 == q.1) = false) {p q : L × R} (hp : p ∈ A)
    (hq : q ∈ A) {l : L} (h1 : (l == p.1) = true) (h2 : (l == q.1) = true) : p = q := by
  obtain ⟨d, hd⟩ := perm_cons_of_mem hp
  have hw : (p :: d).Pairwise fun p q : L × R => (p.1 == q.1) = false :=
    (hd.pairwise_iff fun {a b} h => by rw [BEq.comm]; exact h).1 h
  rcases List.mem_cons.1 (hd.mem_iff.1 hq) with e | hq
  · exact e.symm
  · have := (List.pairwise_cons.1 hw).1 q hq
    rw [BEq.trans (BEq.symm h1) h2] at this; cases this

end Verif.GroupSpec

namespace Verif.GroupMap
open GroupSpec
variable [RawImpl] {L R : Type} [BEq L] [BEq R] [EquivBEq L] [EquivBEq R] {m : GroupMap L R}

theorem ShowsTorn.permA {rights : List R} {A A' B : List (L × R)} (h : ShowsTorn m rights A B) (hp : A.Perm A')
    (ha : A.Pairwise fun p q => (p.1 == q.1) = false) : ShowsTorn m rights A' B where
  iterPaired := by
    obtain ⟨ps, e, h⟩ := h.iterPaired
    exact ⟨ps, e, h.trans hp⟩
  iterLeft := h.iterLeft.trans (hp.map _)
  lenLeft := h.lenLeft.trans hp.length_eq
  containsLeft := fun l => (h.containsLeft l).trans (any_eq_of_perm hp)
  getRight := fun l => by
    rw [h.getRight, find?_perm hp]
    intro a ha' b hb h1 h2
    exact unique_of_apart ha ha' hb h1 h2
  iterUnpaired := h.iterUnpaired
  iterRight := h.iterRight
  lenRight := h.lenRight
  containsRight := h.containsRight
  isRightPaired := h.isRightPaired
  arePaired := fun l r => by rw [h.arePaired, any_eq_of_perm hp]
  getLeft := fun r hr => h.getLeft r fun p hb hrp => by rw [any_eq_of_perm hp]; exact hr p hb hrp
  getLeftPanics := fun r p hb hrp hn => h.getLeftPanics r p hb hrp (by rw [any_eq_of_perm hp]; exact hn)

end Verif.GroupMap
