import Verif.CycleMap.Ledger
import Verif.PartialMap.Ledger
import Verif.GroupMap.Ledger
import Verif.PartialMap.SpecLemmas
import Verif.Props.CycleDemo
import Verif.Props.PartialDemo
import Verif.Props.GroupDemo
/-!
Property C130: calls can be undone with what they return.

"Undone" means that every observer describes the map as before (`Shows m' c` with the same `c`), down to which of
several equal items is stored.
-/
set_option linter.unusedSectionVars false
set_option linter.unusedSimpArgs false

namespace Verif.CycleMap
open CycleSpec OptionalPair Demo

variable [RawImpl] [LawfulRaw] {L R : Type} [BEq L] [BEq R] [EquivBEq L] [EquivBEq R]
variable {m : CycleMap L R} {c d : List (L × R)}

/-- extending by pairs that fit brings exactly these in -/
theorem insertAll_fits {xs : List (L × R)} (h : OneToOne c) (hp : (xs ++ d).Perm c) : (insertAll d xs).Perm c := by
  have h' := h.perm' hp.symm
  obtain ⟨h1, h2, h3⟩ := List.pairwise_append.1 h'
  refine ((insertAll_perm xs d).trans ?_).trans hp
  rw [survivors_of_oneToOne h1, List.filter_eq_self.2]
  intro p hp
  simp only [Bool.not_eq_true', List.any_eq_false, conflicts]
  intro q hq
  simp [(h3 q hq p hp).1, (h3 q hq p hp).2]

/-- C130, `remove_via_left`: putting back what it returned restores the map. -/
theorem C130_removeViaLeft (h : Reachable m) (hc : Shows m c) (l : L) : ∃ o m₁ m₂,
    m.removeViaLeft l = .ok (o, m₁) ∧ m₁.extend o.toList = .ok m₂ ∧ Shows m₂ c := by
  have h := h.repr_of_shows hc
  obtain ⟨m₁, e₁, h₁, -⟩ := removeViaLeft_refines h l
  obtain ⟨m₂, e₂, h₂, -⟩ := extend_refines h₁ (findL c l).toList
  exact ⟨_, m₁, m₂, e₁, e₂, (h₂.perm (insertAll_fits h.oneToOne (find_eraseL_perm h.oneToOne l))).shows⟩

/-- C130, `remove_via_right` -/
theorem C130_removeViaRight (h : Reachable m) (hc : Shows m c) (r : R) : ∃ o m₁ m₂,
    m.removeViaRight r = .ok (o, m₁) ∧ m₁.extend o.toList = .ok m₂ ∧ Shows m₂ c := by
  have h := h.repr_of_shows hc
  obtain ⟨m₁, e₁, h₁, -⟩ := removeViaRight_refines h r
  obtain ⟨m₂, e₂, h₂, -⟩ := extend_refines h₁ (findR c r).toList
  exact ⟨_, m₁, m₂, e₁, e₂, (h₂.perm (insertAll_fits h.oneToOne (find_eraseR_perm h.oneToOne r))).shows⟩

/-- C130, `remove` -/
theorem C130_remove (h : Reachable m) (hc : Shows m c) (l : L) (r : R) : ∃ o m₁ m₂,
    m.remove l r = .ok (o, m₁) ∧ m₁.extend o.toList = .ok m₂ ∧ Shows m₂ c := by
  have h := h.repr_of_shows hc
  obtain ⟨m₁, e₁, h₁, -⟩ := remove_refines h l r
  obtain ⟨m₂, e₂, h₂, -⟩ := extend_refines h₁ (if hasPair c l r then findL c l else none).toList
  refine ⟨_, m₁, m₂, e₁, e₂, (h₂.perm (insertAll_fits h.oneToOne ?_)).shows⟩
  split
  · exact find_eraseL_perm h.oneToOne l
  · exact .refl _

/-- the pairs `insert` pushed out -/
def ejected (o : InsertOptional L R) : List (L × R) := o.toPair.1.toList ++ o.toPair.2.toList

theorem ejected_perm (h : OneToOne c) (l : L) (r : R) :
    (ejected (CycleSpec.insert c l r).1 ++ c.filter fun p => !(l == p.1) && !(r == p.2)).Perm c := by
  have h1 := find_eraseL_perm h l
  have h2 := find_eraseR_perm (h.sublist List.filter_sublist : OneToOne (eraseL c l)) r
  rw [findR_eraseL h, eraseR_eraseL] at h2
  have : ejected (CycleSpec.insert c l r).1 = (findL c l).toList ++ (if hasPair c l r then none else findR c r).toList := by
    simp only [CycleSpec.insert, ejected]
    generalize findL c l = a
    generalize (if hasPair c l r then none else findR c r) = b
    cases a <;> cases b <;> rfl
  rw [this, List.append_assoc]
  exact (h2.append_left _).trans h1

/-- C130, `insert`: removing the new pair returns it, and putting back the pairs it had pushed out restores the map. -/
theorem C130_insert (h : Reachable m) (hc : Shows m c) (l : L) (r : R) : ∃ o m₁ m₂ m₃,
    m.insert l r = .ok (o, m₁) ∧ m₁.remove l r = .ok (some (l, r), m₂) ∧ m₂.extend (ejected o) = .ok m₃ ∧ Shows m₃ c := by
  have h := h.repr_of_shows hc
  obtain ⟨m₁, e₁, h₁, -⟩ := insert_refines h l r
  obtain ⟨m₂, e₂, h₂, -⟩ := remove_refines h₁ l r
  have hp : hasPair (CycleSpec.insert c l r).2 l r = true := by simp [CycleSpec.insert, hasPair]
  have hf : findL (CycleSpec.insert c l r).2 l = some (l, r) := by simp [CycleSpec.insert, findL]
  have he : eraseL (CycleSpec.insert c l r).2 l = c.filter fun p => !(l == p.1) && !(r == p.2) := by
    simp only [CycleSpec.insert, eraseL, List.filter_cons, BEq.rfl, Bool.not_true]
    rw [if_neg (by simp), List.filter_filter]
    congr 1; funext p; cases l == p.1 <;> simp
  rw [hp, if_pos rfl, hf] at e₂
  rw [hp, if_pos rfl, he] at h₂
  obtain ⟨m₃, e₃, h₃, -⟩ := extend_refines h₂ (ejected (CycleSpec.insert c l r).1)
  exact ⟨_, m₁, m₂, m₃, e₁, e₂, e₃, (h₃.perm (insertAll_fits h.oneToOne (ejected_perm h.oneToOne l r))).shows⟩

/-- C130, `swap_left` of an item that is there: it returns the stored item `a`, swapping `a` back in returns `new`, and
putting back the pair of `new` it had pushed out, if any, restores the map. -/
theorem C130_swapLeft (h : Reachable m) (hc : Shows m c) (old new : L) (ho : m.containsLeft old = true) : ∃ a q m₁ m₂ m₃,
    m.swapLeft old new = .ok (ofPair (some a, q), m₁) ∧ m₁.swapLeft new a = .ok (.someLeft new, m₂) ∧
    m₂.extend q.toList = .ok m₃ ∧ Shows m₃ c := by
  have h := h.repr_of_shows hc
  have o1 := h.oneToOne
  obtain ⟨m₁, e₁, h₁, -⟩ := swapLeft_refines h old new
  rw [hc.containsLeft, ← findL_isSome_eq] at ho
  obtain ⟨⟨a, b⟩, hf⟩ := Option.isSome_iff_exists.1 ho
  have hoa : (old == a) = true := (findL_mem hf).2
  have hp := two_left o1 old new
  obtain ⟨m₂, e₂, h₂, -⟩ := swapLeft_refines h₁ new a
  simp only [CycleSpec.swapLeft, hf] at e₁ h₁ e₂ h₂ hp
  generalize hz : (c.filter fun p => !(old == p.1) && !(new == p.1)) = z at *
  have hzn : ∀ p ∈ z, (new == p.1) = false ∧ (a == p.1) = false := by
    intro p hp
    rw [← hz] at hp
    have := (List.mem_filter.1 hp).2
    simp only [Bool.and_eq_true, Bool.not_eq_true'] at this
    refine ⟨this.2, ?_⟩
    rw [← this.1]; exact (BEq.congr_left hoa).symm
  have g1 : findL ((new, b) :: z) new = some (new, b) := by simp [findL]
  have g2 : (if a == new then none else findL ((new, b) :: z) a) = none := by
    split
    · rfl
    · rename_i hne
      rw [findL, List.find?_eq_none]
      intro p hp
      rcases List.mem_cons.1 hp with rfl | hp
      · exact hne
      · simp [(hzn p hp).2]
  have g3 : (((new, b) :: z).filter fun p => !(new == p.1) && !(a == p.1)) = z := by
    rw [List.filter_cons_of_neg (by simp), List.filter_eq_self]
    intro p hp; simp [hzn p hp]
  simp only [g1, g2, g3, ofPair] at e₂ h₂
  obtain ⟨m₃, e₃, h₃, -⟩ := extend_refines h₂ (if new == old then none else findL c new).toList
  refine ⟨a, _, m₁, m₂, m₃, e₁, e₂, e₃, (h₃.perm (insertAll_fits o1 ?_)).shows⟩
  exact List.perm_middle.trans hp

/-- C130, `swap_right` -/
theorem C130_swapRight (h : Reachable m) (hc : Shows m c) (old new : R) (ho : m.containsRight old = true) : ∃ b q m₁ m₂ m₃,
    m.swapRight old new = .ok (ofPair (some b, q), m₁) ∧ m₁.swapRight new b = .ok (.someLeft new, m₂) ∧
    m₂.extend q.toList = .ok m₃ ∧ Shows m₃ c := by
  have h := h.repr_of_shows hc
  have o1 := h.oneToOne
  obtain ⟨m₁, e₁, h₁, -⟩ := swapRight_refines h old new
  rw [hc.containsRight, ← findR_isSome_eq] at ho
  obtain ⟨⟨a, b⟩, hf⟩ := Option.isSome_iff_exists.1 ho
  have hoa : (old == b) = true := (findR_mem hf).2
  have hp := two_right o1 old new
  obtain ⟨m₂, e₂, h₂, -⟩ := swapRight_refines h₁ new b
  simp only [CycleSpec.swapRight, hf] at e₁ h₁ e₂ h₂ hp
  generalize hz : (c.filter fun p => !(old == p.2) && !(new == p.2)) = z at *
  have hzn : ∀ p ∈ z, (new == p.2) = false ∧ (b == p.2) = false := by
    intro p hp
    rw [← hz] at hp
    have := (List.mem_filter.1 hp).2
    simp only [Bool.and_eq_true, Bool.not_eq_true'] at this
    refine ⟨this.2, ?_⟩
    rw [← this.1]; exact (BEq.congr_left hoa).symm
  have g1 : findR ((a, new) :: z) new = some (a, new) := by simp [findR]
  have g2 : (if b == new then none else findR ((a, new) :: z) b) = none := by
    split
    · rfl
    · rename_i hne
      rw [findR, List.find?_eq_none]
      intro p hp
      rcases List.mem_cons.1 hp with rfl | hp
      · exact hne
      · simp [(hzn p hp).2]
  have g3 : (((a, new) :: z).filter fun p => !(new == p.2) && !(b == p.2)) = z := by
    rw [List.filter_cons_of_neg (by simp), List.filter_eq_self]
    intro p hp; simp [hzn p hp]
  simp only [g1, g2, g3, ofPair] at e₂ h₂
  obtain ⟨m₃, e₃, h₃, -⟩ := extend_refines h₂ (if new == old then none else findR c new).toList
  refine ⟨b, _, m₁, m₂, m₃, e₁, e₂, e₃, (h₃.perm (insertAll_fits o1 ?_)).shows⟩
  exact List.perm_middle.trans hp

/-- `insert 1 20` pushes out two pairs -/
example : ∃ o m₁ m₂ m₃, demo.insert 1 20 = .ok (o, m₁) ∧ m₁.remove 1 20 = .ok (some (1, 20), m₂) ∧ m₂.extend (ejected o) = .ok m₃ ∧
    Shows m₃ [(3, 30), (2, 20), (1, 10)] := C130_insert demo_reachable demo_shows 1 20

example : ∃ o m₁ m₂, demo.removeViaLeft 2 = .ok (o, m₁) ∧ m₁.extend o.toList = .ok m₂ ∧ Shows m₂ [(3, 30), (2, 20), (1, 10)] :=
  C130_removeViaLeft demo_reachable demo_shows 2

/-- `swap_left(1, 3)` pushes out the pair of 3 -/
example : ∃ a q m₁ m₂ m₃, demo.swapLeft 1 3 = .ok (ofPair (some a, q), m₁) ∧ m₁.swapLeft 3 a = .ok (.someLeft 3, m₂) ∧
    m₂.extend q.toList = .ok m₃ ∧ Shows m₃ [(3, 30), (2, 20), (1, 10)] :=
  C130_swapLeft demo_reachable demo_shows 1 3 (by rw [demo_shows.containsLeft]; rfl)

example : ∃ b q m₁ m₂ m₃, demo.swapRight 10 99 = .ok (ofPair (some b, q), m₁) ∧ m₁.swapRight 99 b = .ok (.someLeft 99, m₂) ∧
    m₂.extend q.toList = .ok m₃ ∧ Shows m₃ [(3, 30), (2, 20), (1, 10)] :=
  C130_swapRight demo_reachable demo_shows 10 99 (by rw [demo_shows.containsRight]; rfl)

end Verif.CycleMap

namespace Verif.PartialMap
open PartialSpec OptionalPair Demo

variable [RawImpl] [LawfulRaw] {L R : Type} [BEq L] [BEq R] [EquivBEq L] [EquivBEq R]
variable {m : PartialMap L R} {c d : List (OptionalPair L R)}

/-- extending by entries that fit brings exactly these in -/
theorem insertAll_fits {xs : List (OptionalPair L R)} (h : OneToOne c) (hp : (xs.flatMap real ++ d).Perm c) : (insertAll d xs).Perm c := by
  induction xs generalizing d with
  | nil => exact hp
  | cons x xs ih =>
    have hi : insertAll d (x :: xs) = insertAll (insertEntry d x) xs := rfl
    rw [hi]
    refine ih ?_
    have hx : (d.filter fun e => !clash x e) = d := by
      rw [List.filter_eq_self]
      intro e he
      have hd := (h.perm hp.symm).1
      rw [List.flatMap_cons, List.append_assoc] at hd
      have := (List.pairwise_append.1 hd).2.2
      rw [Bool.not_eq_true', clash_iff]
      cases x with
      | neither => constructor <;> (intro y hy; cases hy)
      | _ => exact this _ (by simp [real]) e (List.mem_append_right _ he)
    rw [insertEntry_eq, hx, ← List.append_assoc]
    refine List.Perm.trans ?_ hp
    rw [List.flatMap_cons]
    exact (List.perm_append_comm.append_right _)

theorem real_getD {o : Option (OptionalPair L R)} (h : ∀ e, o = some e → e ≠ neither) : real (o.getD neither) = o.toList := by
  cases o with
  | none => rfl
  | some e => cases e <;> first | rfl | exact absurd rfl (h _ rfl)

theorem findL_real (l : L) : ∀ e, findL c l = some e → e ≠ neither := by
  rintro e he rfl
  have : hasL l (neither : OptionalPair L R) = true := List.find?_some he
  cases this

theorem findR_real (r : R) : ∀ e, findR c r = some e → e ≠ neither := by
  rintro e he rfl
  have : hasR r (neither : OptionalPair L R) = true := List.find?_some he
  cases this

/-- C130, `remove_via_left`: putting back what it returned restores the map. -/
theorem C130_removeViaLeft (h : Reachable m) (hc : Shows m c) (l : L) : ∃ o m₁ m₂,
    m.removeViaLeft l = .ok (o, m₁) ∧ m₁.extend [o] = .ok m₂ ∧ Shows m₂ c := by
  have h := h.repr_of_shows hc
  obtain ⟨m₁, e₁, h₁, -⟩ := removeViaLeft_refines h l
  obtain ⟨m₂, e₂, h₂, -⟩ := extend_refines h₁ [(findL c l).getD neither]
  refine ⟨_, m₁, m₂, e₁, e₂, (h₂.perm (insertAll_fits h.oneToOne ?_)).shows⟩
  simp only [List.flatMap_cons, List.flatMap_nil, List.append_nil, real_getD (findL_real l)]
  exact find_eraseL_perm h.oneToOne l

/-- C130, `remove_via_right` -/
theorem C130_removeViaRight (h : Reachable m) (hc : Shows m c) (r : R) : ∃ o m₁ m₂,
    m.removeViaRight r = .ok (o, m₁) ∧ m₁.extend [o] = .ok m₂ ∧ Shows m₂ c := by
  have h := h.repr_of_shows hc
  obtain ⟨m₁, e₁, h₁, -⟩ := removeViaRight_refines h r
  obtain ⟨m₂, e₂, h₂, -⟩ := extend_refines h₁ [(findR c r).getD neither]
  refine ⟨_, m₁, m₂, e₁, e₂, (h₂.perm (insertAll_fits h.oneToOne ?_)).shows⟩
  simp only [List.flatMap_cons, List.flatMap_nil, List.append_nil, real_getD (findR_real r)]
  exact find_eraseR_perm h.oneToOne r

/-- C130, `remove` -/
theorem C130_remove (h : Reachable m) (hc : Shows m c) (l : L) (r : R) : ∃ o m₁ m₂,
    m.remove l r = .ok (o, m₁) ∧ m₁.extendPairs o.toList = .ok m₂ ∧ Shows m₂ c := by
  have h := h.repr_of_shows hc
  obtain ⟨m₁, e₁, h₁, -⟩ := remove_refines h l r
  obtain ⟨m₂, e₂, h₂, -⟩ := extendPairs_refines h₁ (PartialSpec.remove c l r).1.toList
  refine ⟨_, m₁, m₂, e₁, e₂, (h₂.perm (insertAll_fits h.oneToOne ?_)).shows⟩
  simp only [PartialSpec.remove]
  split
  · rename_i hp
    obtain ⟨a, b, hf, -⟩ := findL_pair h.oneToOne hp
    have := find_eraseL_perm h.oneToOne l
    rw [hf] at this ⊢
    exact this
  · exact .refl _

/-- C130, `insert`: removing the new pair returns it, and putting back the two entries it had pushed out restores the map. -/
theorem C130_insert (h : Reachable m) (hc : Shows m c) (l : L) (r : R) : ∃ x y m₁ m₂ m₃,
    m.insert l r = .ok ((x, y), m₁) ∧ m₁.remove l r = .ok (some (l, r), m₂) ∧ m₂.extend [x, y] = .ok m₃ ∧ Shows m₃ c := by
  have h := h.repr_of_shows hc
  obtain ⟨m₁, e₁, h₁, -⟩ := insert_refines h l r
  obtain ⟨m₂, e₂, h₂, -⟩ := remove_refines h₁ l r
  have hrem : PartialSpec.remove (PartialSpec.insert c l r).2 l r = (some (l, r), others c l r) := by
    have he : eraseL (PartialSpec.insert c l r).2 l = others c l r := by
      simp only [PartialSpec.insert, eraseL]
      rw [List.filter_cons_of_neg (by simp [hasL]), others, List.filter_filter]
      congr 1; funext p; cases hasL l p <;> simp
    rw [PartialSpec.remove, he]
    simp [PartialSpec.insert, hasPair, hasL, hasR, findL, pairOf]
  rw [hrem] at e₂ h₂
  obtain ⟨m₃, e₃, h₃, -⟩ := extend_refines h₂ [(PartialSpec.insert c l r).1.1, (PartialSpec.insert c l r).1.2]
  refine ⟨_, _, m₁, m₂, m₃, e₁, e₂, e₃, (h₃.perm (insertAll_fits h.oneToOne ?_)).shows⟩
  have := others_perm h.oneToOne l r
  simp only [PartialSpec.insert, List.flatMap_cons, List.flatMap_nil, List.append_nil, real_getD (findL_real l)]
  split
  · rename_i hp
    rw [hp] at this
    exact this
  · rename_i hp
    rw [if_neg hp] at this
    rw [real_getD (findR_real r)]; exact this

/-- C130, `insert_left` -/
theorem C130_insertLeft (h : Reachable m) (hc : Shows m c) (l : L) : ∃ e m₁ m₂ m₃,
    m.insertLeft l = .ok (e, m₁) ∧ m₁.removeViaLeft l = .ok (someLeft l, m₂) ∧ m₂.extend [e] = .ok m₃ ∧ Shows m₃ c := by
  have h := h.repr_of_shows hc
  obtain ⟨m₁, e₁, h₁, -⟩ := insertLeft_refines h l
  obtain ⟨m₂, e₂, h₂, -⟩ := removeViaLeft_refines h₁ l
  have hf : findL (PartialSpec.insertLeft c l).2 l = some (someLeft l) := by simp [PartialSpec.insertLeft, findL, hasL]
  have he : eraseL (PartialSpec.insertLeft c l).2 l = eraseL c l := by
    simp [PartialSpec.insertLeft, eraseL, hasL, List.filter_filter]
  rw [hf] at e₂; rw [he] at h₂
  obtain ⟨m₃, e₃, h₃, -⟩ := extend_refines h₂ [(PartialSpec.insertLeft c l).1]
  refine ⟨_, m₁, m₂, m₃, e₁, e₂, e₃, (h₃.perm (insertAll_fits h.oneToOne ?_)).shows⟩
  simp only [PartialSpec.insertLeft, List.flatMap_cons, List.flatMap_nil, List.append_nil, real_getD (findL_real l)]
  exact find_eraseL_perm h.oneToOne l

/-- C130, `insert_right` -/
theorem C130_insertRight (h : Reachable m) (hc : Shows m c) (r : R) : ∃ e m₁ m₂ m₃,
    m.insertRight r = .ok (e, m₁) ∧ m₁.removeViaRight r = .ok (someRight r, m₂) ∧ m₂.extend [e] = .ok m₃ ∧ Shows m₃ c := by
  have h := h.repr_of_shows hc
  obtain ⟨m₁, e₁, h₁, -⟩ := insertRight_refines h r
  obtain ⟨m₂, e₂, h₂, -⟩ := removeViaRight_refines h₁ r
  have hf : findR (PartialSpec.insertRight c r).2 r = some (someRight r) := by simp [PartialSpec.insertRight, findR, hasR]
  have he : eraseR (PartialSpec.insertRight c r).2 r = eraseR c r := by
    simp [PartialSpec.insertRight, eraseR, hasR, List.filter_filter]
  rw [hf] at e₂; rw [he] at h₂
  obtain ⟨m₃, e₃, h₃, -⟩ := extend_refines h₂ [(PartialSpec.insertRight c r).1]
  refine ⟨_, m₁, m₂, m₃, e₁, e₂, e₃, (h₃.perm (insertAll_fits h.oneToOne ?_)).shows⟩
  simp only [PartialSpec.insertRight, List.flatMap_cons, List.flatMap_nil, List.append_nil, real_getD (findR_real r)]
  exact find_eraseR_perm h.oneToOne r

/-- C130, `swap_left` of an item that is there: it returns the stored item `a`, swapping `a` back in returns `new`, and
putting back the entry of `new` it had pushed out, if any, restores the map. -/
theorem C130_swapLeft (h : Reachable m) (hc : Shows m c) (old new : L) (ho : m.containsLeft old = true) : ∃ a q m₁ m₂ m₃,
    m.swapLeft old new = .ok (ofPair (some a, q), m₁) ∧ m₁.swapLeft new a = .ok (.someLeft new, m₂) ∧
    m₂.extend q.toList = .ok m₃ ∧ Shows m₃ c := by
  have h := h.repr_of_shows hc
  have o1 := h.oneToOne
  obtain ⟨m₁, e₁, h₁, -⟩ := swapLeft_refines h old new
  have ho : (findL c old).isSome = true := by rw [hc.containsLeft] at ho; simpa [findL] using ho
  obtain ⟨e, hf⟩ := Option.isSome_iff_exists.1 ho
  have hl : hasL old e = true := List.find?_some hf
  obtain ⟨a, ha, hoa, hs1, hs2⟩ : ∃ a, leftOf e = some a ∧ (old == a) = true ∧ hasL new (setLeft new e) = true ∧
      setLeft a (setLeft new e) = e := by
    rcases hasL_cases hl with ⟨a, rfl, h⟩ | ⟨a, b, rfl, h⟩ <;> exact ⟨a, rfl, h, by simp [setLeft, hasL], rfl⟩
  have hp := two_left o1 old new
  obtain ⟨m₂, e₂, h₂, -⟩ := swapLeft_refines h₁ new a
  simp only [PartialSpec.swapLeft, hf, ha] at e₁ h₁ e₂ h₂ hp
  generalize hz : (c.filter fun p => !hasL old p && !hasL new p) = z at *
  have hzn : ∀ p ∈ z, hasL new p = false ∧ hasL a p = false := by
    intro p hp
    rw [← hz] at hp
    have := (List.mem_filter.1 hp).2
    simp only [Bool.and_eq_true, Bool.not_eq_true'] at this
    refine ⟨this.2, ?_⟩
    rw [← this.1]; exact (hasL_congr hoa).symm
  have g1 : findL (setLeft new e :: z) new = some (setLeft new e) := by simp [findL, hs1]
  have g2 : (if a == new then none else findL (setLeft new e :: z) a) = none := by
    split
    · rfl
    · rename_i hne
      rw [findL, List.find?_eq_none]
      intro p hp
      rcases List.mem_cons.1 hp with rfl | hp
      · exact fun hh => hne (hasL_both hs1 hh)
      · simp [(hzn p hp).2]
  have g3 : ((setLeft new e :: z).filter fun p => !hasL new p && !hasL a p) = z := by
    rw [List.filter_cons_of_neg (by simp [hs1]), List.filter_eq_self]
    intro p hp; simp [hzn p hp]
  simp only [g1, g2, g3, setLeft_L hl, hs2, ofPair] at e₂ h₂
  obtain ⟨m₃, e₃, h₃, -⟩ := extend_refines h₂ (if new == old then none else findL c new).toList
  refine ⟨a, _, m₁, m₂, m₃, e₁, e₂, e₃, (h₃.perm (insertAll_fits o1 ?_)).shows⟩
  have : (if new == old then none else findL c new).toList.flatMap real = (if new == old then none else findL c new).toList := by
    split
    · rfl
    · have := real_getD (findL_real (c := c) new)
      cases hq : findL c new with
      | none => rfl
      | some q => rw [hq] at this; simpa using this
  rw [this]
  exact List.perm_middle.trans hp

/-- C130, `swap_right` -/
theorem C130_swapRight (h : Reachable m) (hc : Shows m c) (old new : R) (ho : m.containsRight old = true) : ∃ b q m₁ m₂ m₃,
    m.swapRight old new = .ok (ofPair (some b, q), m₁) ∧ m₁.swapRight new b = .ok (.someLeft new, m₂) ∧
    m₂.extend q.toList = .ok m₃ ∧ Shows m₃ c := by
  have h := h.repr_of_shows hc
  have o1 := h.oneToOne
  obtain ⟨m₁, e₁, h₁, -⟩ := swapRight_refines h old new
  have ho : (findR c old).isSome = true := by rw [hc.containsRight] at ho; simpa [findR] using ho
  obtain ⟨e, hf⟩ := Option.isSome_iff_exists.1 ho
  have hl : hasR old e = true := List.find?_some hf
  obtain ⟨b, ha, hoa, hs1, hs2⟩ : ∃ b, rightOf e = some b ∧ (old == b) = true ∧ hasR new (setRight new e) = true ∧
      setRight b (setRight new e) = e := by
    rcases hasR_cases hl with ⟨a, rfl, h⟩ | ⟨a, b, rfl, h⟩ <;> exact ⟨_, rfl, h, by simp [setRight, hasR], rfl⟩
  have hp := two_right o1 old new
  obtain ⟨m₂, e₂, h₂, -⟩ := swapRight_refines h₁ new b
  simp only [PartialSpec.swapRight, hf, ha] at e₁ h₁ e₂ h₂ hp
  generalize hz : (c.filter fun p => !hasR old p && !hasR new p) = z at *
  have hzn : ∀ p ∈ z, hasR new p = false ∧ hasR b p = false := by
    intro p hp
    rw [← hz] at hp
    have := (List.mem_filter.1 hp).2
    simp only [Bool.and_eq_true, Bool.not_eq_true'] at this
    refine ⟨this.2, ?_⟩
    rw [← this.1]; exact (hasR_congr hoa).symm
  have g1 : findR (setRight new e :: z) new = some (setRight new e) := by simp [findR, hs1]
  have g2 : (if b == new then none else findR (setRight new e :: z) b) = none := by
    split
    · rfl
    · rename_i hne
      rw [findR, List.find?_eq_none]
      intro p hp
      rcases List.mem_cons.1 hp with rfl | hp
      · exact fun hh => hne (hasR_both hs1 hh)
      · simp [(hzn p hp).2]
  have g3 : ((setRight new e :: z).filter fun p => !hasR new p && !hasR b p) = z := by
    rw [List.filter_cons_of_neg (by simp [hs1]), List.filter_eq_self]
    intro p hp; simp [hzn p hp]
  simp only [g1, g2, g3, setRight_R hl, hs2, ofPair] at e₂ h₂
  obtain ⟨m₃, e₃, h₃, -⟩ := extend_refines h₂ (if new == old then none else findR c new).toList
  refine ⟨b, _, m₁, m₂, m₃, e₁, e₂, e₃, (h₃.perm (insertAll_fits o1 ?_)).shows⟩
  have : (if new == old then none else findR c new).toList.flatMap real = (if new == old then none else findR c new).toList := by
    split
    · rfl
    · have := real_getD (findR_real (c := c) new)
      cases hq : findR c new with
      | none => rfl
      | some q => rw [hq] at this; simpa using this
  rw [this]
  exact List.perm_middle.trans hp

theorem unpairSafe_of_pair {hb : BuildHasher L R} {l : L} {r : R} (h : hasPair c l r = true) : UnpairSafe hb c l r := fun _ _ _ _ _ _ _ _ _ _ => h

/-- the items of two entries that do not clash are told apart by the entries -/
theorem not_mem_others {l : L} {r : R} {e : OptionalPair L R} (h : e ∈ others c l r) : hasL l e = false ∧ hasR r e = false := by
  have := (List.mem_filter.1 h).2
  simpa using this

/-- C130, `unpair` of partners is undone by `pair`. -/
theorem C130_unpair (h : Reachable m) (hc : Shows m c) (l : L) (r : R) (hlr : m.arePaired l r = true) : ∃ m₁ m₂,
    m.unpair l r = (true, m₁) ∧ m₁.pair l r = (true, m₂) ∧ Shows m₂ c := by
  have h := h.repr_of_shows hc
  rw [hc.arePaired] at hlr
  obtain ⟨m₁, e₁, h₁, -⟩ := unpair_refines h l r (unpairSafe_of_pair hlr)
  obtain ⟨m₂, e₂, h₂, -⟩ := pair_refines h₁ l r
  obtain ⟨a, b, hf, hf'⟩ := findL_pair h.oneToOne hlr
  have hl : (l == a) = true := by simpa [hasL] using List.find?_some hf
  have hr : (r == b) = true := by simpa [hasR] using List.find?_some hf'
  have hp := others_perm h.oneToOne l r
  rw [hf, hlr] at hp
  have hu : PartialSpec.unpair c l r = (true, someLeft a :: someRight b :: others c l r) := by
    simp [PartialSpec.unpair, hlr, hf, hf', lones, leftOf, rightOf]
  rw [hu] at e₁ h₁ e₂ h₂
  have ho : (others (someLeft a :: someRight b :: others c l r) l r) = others c l r := by
    rw [others, List.filter_cons_of_neg (by simp [hasL, hl]), List.filter_cons_of_neg (by simp [hasR, hr]), List.filter_eq_self]
    intro e he; simp [not_mem_others he]
  have hq : PartialSpec.pair (someLeft a :: someRight b :: others c l r) l r = (true, someBoth a b :: others c l r) := by
    simp [PartialSpec.pair, findL, findR, hasL, hasR, hl, hr, ho]
  rw [hq] at e₂ h₂
  exact ⟨m₁, m₂, e₁, e₂, (h₂.perm (by simpa using hp)).shows⟩

/-- C130, `pair`, if it pairs the items, is undone by `unpair`. -/
theorem C130_pair (h : Reachable m) (hc : Shows m c) (l : L) (r : R) (hlr : (m.pair l r).1 = true) : ∃ m₁ m₂,
    m.pair l r = (true, m₁) ∧ m₁.unpair l r = (true, m₂) ∧ Shows m₂ c := by
  have h := h.repr_of_shows hc
  obtain ⟨m₁, e₁, h₁, -⟩ := pair_refines h l r
  rw [e₁] at hlr
  obtain ⟨a, b, hf, hf', hq⟩ : ∃ a b, findL c l = some (someLeft a) ∧ findR c r = some (someRight b) ∧
      PartialSpec.pair c l r = (true, someBoth a b :: others c l r) := by
    simp only [PartialSpec.pair] at hlr ⊢
    split at hlr
    · exact ⟨_, _, by assumption, by assumption, rfl⟩
    · cases hlr
  have hl : (l == a) = true := by simpa [hasL] using List.find?_some hf
  have hr : (r == b) = true := by simpa [hasR] using List.find?_some hf'
  rw [hq] at e₁ h₁
  have hp' : hasPair (someBoth a b :: others c l r) l r = true := by simp [hasPair, hasL, hasR, hl, hr]
  obtain ⟨m₂, e₂, h₂, -⟩ := unpair_refines h₁ l r (unpairSafe_of_pair hp')
  have ho : (others (someBoth a b :: others c l r) l r) = others c l r := by
    rw [others, List.filter_cons_of_neg (by simp [hasL, hl]), List.filter_eq_self]
    intro e he; simp [not_mem_others he]
  have hu : PartialSpec.unpair (someBoth a b :: others c l r) l r = (true, someLeft a :: someRight b :: others c l r) := by
    simp [PartialSpec.unpair, hp', findL, findR, hasL, hasR, hl, hr, lones, leftOf, rightOf, ho]
  rw [hu] at e₂ h₂
  refine ⟨m₁, m₂, e₁, e₂, (h₂.perm ?_).shows⟩
  have hp := others_perm h.oneToOne l r
  have hn : hasPair c l r = false := by rw [hasPair_eq h.oneToOne, hf]; rfl
  rw [hf, hf', hn] at hp
  simpa using hp

/-- what the pairing calls find: two entries without a common item -/
theorem apart_entries (h : OneToOne c) {l : L} {r : R} {e₁ e₂ : OptionalPair L R} (hl : findL c l = some e₁) (hr : findR c r = some e₂)
    (hn : hasPair c l r = false) : ∃ a b, leftOf e₁ = some a ∧ rightOf e₂ = some b ∧ (l == a) = true ∧ (r == b) = true ∧
      e₁ = ofPair (some a, rightOf e₁) ∧ e₂ = ofPair (leftOf e₂, some b) ∧ (e₁ :: e₂ :: others c l r).Perm c ∧
      Disj e₁ e₂ ∧ Disj e₂ e₁ ∧ hasL l e₂ = false ∧ hasR r e₁ = false ∧ ∀ e ∈ others c l r, Disj e₁ e ∧ Disj e₂ e := by
  have h1 : hasL l e₁ = true := List.find?_some hl
  have h2 : hasR r e₂ = true := List.find?_some hr
  have hp := others_perm h l r
  rw [hl, hr, hn] at hp
  replace hp : (e₁ :: e₂ :: others c l r).Perm c := by simpa using hp
  have hd := (h.perm hp.symm).1
  have hd' := (h.perm ((List.Perm.swap e₁ e₂ _).trans hp).symm).1
  obtain ⟨p1, p2⟩ := List.pairwise_cons.1 hd
  obtain ⟨p3, p4⟩ := List.pairwise_cons.1 hd'
  have n1 : hasL l e₂ = false := by
    have := hasPair_eq' h l r; rw [hr, hn] at this; exact this.symm
  have n2 : hasR r e₁ = false := by
    have := hasPair_eq h l r; rw [hl, hn] at this; exact this.symm
  have k1 : ∃ a, leftOf e₁ = some a ∧ (l == a) = true ∧ e₁ = ofPair (some a, rightOf e₁) := by
    rcases hasL_cases h1 with ⟨a, rfl, h⟩ | ⟨a, b, rfl, h⟩ <;> exact ⟨a, rfl, h, rfl⟩
  have k2 : ∃ b, rightOf e₂ = some b ∧ (r == b) = true ∧ e₂ = ofPair (leftOf e₂, some b) := by
    rcases hasR_cases h2 with ⟨a, rfl, h⟩ | ⟨a, b, rfl, h⟩ <;> exact ⟨_, rfl, h, rfl⟩
  obtain ⟨a, ha, hla, he1⟩ := k1
  obtain ⟨b, hb, hrb, he2⟩ := k2
  exact ⟨a, b, ha, hb, hla, hrb, he1, he2, hp, p1 e₂ (by simp), p3 e₁ (by simp), n1, n2,
    fun e he => ⟨p1 e (by simp [he]), p3 e (by simp [he])⟩⟩

/-- the two entries `pair_forced` took apart, from the pair it made and what it returned -/
def former (a : L) (b : R) (o : OptionalPair L R) : List (OptionalPair L R) := [ofPair (some a, o.getRight), ofPair (o.getLeft, some b)]

/-- C130, `pair_forced`: taking out the pair it made and putting back both items with the partners it returned restores the map. -/
theorem C130_pairForced (h : Reachable m) (hc : Shows m c) (l : L) (r : R) (hl : m.containsLeft l = true) (hr : m.containsRight r = true)
    (hn : m.arePaired l r = false) : ∃ o a b m₁ m₂ m₃,
    m.pairForced l r = .ok (o, m₁) ∧ m₁.remove l r = .ok (some (a, b), m₂) ∧ m₂.extend (former a b o) = .ok m₃ ∧ Shows m₃ c := by
  have h := h.repr_of_shows hc
  have o1 := h.oneToOne
  rw [hc.arePaired] at hn
  have hl : (findL c l).isSome = true := by rw [hc.containsLeft] at hl; simpa [findL] using hl
  have hr : (findR c r).isSome = true := by rw [hc.containsRight] at hr; simpa [findR] using hr
  obtain ⟨e, hf⟩ := Option.isSome_iff_exists.1 hl
  obtain ⟨e', hf'⟩ := Option.isSome_iff_exists.1 hr
  obtain ⟨a, b, ha, hb, hla, hrb, he, he', hp, d1, d2, n1, n2, hd⟩ := apart_entries o1 hf hf' hn
  obtain ⟨m₁, e₁, h₁, -⟩ := pairForced_refines h l r
  have hq : PartialSpec.pairForced c l r = (ofPair (leftOf e', rightOf e), someBoth a b :: (lones (leftOf e') (rightOf e) ++ others c l r)) := by
    simp [PartialSpec.pairForced, hf, hf', hn, ha, hb]
  rw [hq] at e₁ h₁
  obtain ⟨m₂, e₂, h₂, -⟩ := remove_refines h₁ l r
  have he0 : eraseL (someBoth a b :: (lones (leftOf e') (rightOf e) ++ others c l r)) l = lones (leftOf e') (rightOf e) ++ others c l r := by
    rw [eraseL, List.filter_cons_of_neg (by simp [hasL, hla]), List.filter_eq_self]
    intro x hx
    rcases List.mem_append.1 hx with hx | hx
    · cases e' <;> cases hre : rightOf e <;> simp [lones, leftOf, hre] at hx
      all_goals first | (rcases hx with rfl | rfl) | subst hx
      all_goals first | rfl | simpa [hasL] using n1
    · simp [not_mem_others hx]
  have hrem : PartialSpec.remove (someBoth a b :: (lones (leftOf e') (rightOf e) ++ others c l r)) l r =
      (some (a, b), lones (leftOf e') (rightOf e) ++ others c l r) := by
    rw [PartialSpec.remove, he0]
    simp [hasPair, hasL, hasR, hla, hrb, findL, pairOf]
  rw [hrem] at e₂ h₂
  obtain ⟨m₃, e₃, h₃, -⟩ := extend_refines h₂ (former a b (ofPair (leftOf e', rightOf e)))
  refine ⟨_, a, b, m₁, m₂, m₃, e₁, e₂, e₃, (h₃.perm ?_).shows⟩
  have hform : former a b (ofPair (leftOf e', rightOf e)) = [e, e'] := by
    simp only [former]
    have g1 : (ofPair (leftOf e', rightOf e)).getRight = rightOf e := by cases leftOf e' <;> cases rightOf e <;> rfl
    have g2 : (ofPair (leftOf e', rightOf e)).getLeft = leftOf e' := by cases leftOf e' <;> cases rightOf e <;> rfl
    rw [g1, g2, ← he, ← he']
  rw [hform]
  have c1 : ∀ x ∈ others c l r, clash e x = false ∧ clash e' x = false := fun x hx => ⟨clash_iff.2 (hd x hx).1, clash_iff.2 (hd x hx).2⟩
  have r1 : real e = [e] := by rw [he]; cases rightOf e <;> rfl
  have r2 : real e' = [e'] := by rw [he']; cases leftOf e' <;> rfl
  have i1 : insertEntry (lones (leftOf e') (rightOf e) ++ others c l r) e = e :: (lones (leftOf e') none ++ others c l r) := by
    rw [insertEntry_eq, r1, List.filter_append]
    rw [show (others c l r).filter (fun x => !clash e x) = others c l r from List.filter_eq_self.2 fun x hx => by simp [(c1 x hx).1]]
    have : (lones (leftOf e') (rightOf e)).filter (fun x => !clash e x) = lones (leftOf e') none := by
      have k1 : ∀ x, leftOf e' = some x → clash e (someLeft x) = false := by
        intro x hx
        rw [clash_iff]
        refine ⟨fun y hy => ?_, fun y hy => rfl⟩
        have := d1.1 y hy
        cases e' <;> simp [leftOf] at hx <;> subst hx <;> exact this
      have k2 : ∀ x, rightOf e = some x → clash e (someRight x) = true := by
        intro x hx; simp [clash, hx, hasR]
      cases hle : leftOf e' with
      | none =>
        cases hre : rightOf e with
        | none => rfl
        | some y => simp [lones, k2 y hre]
      | some x =>
        cases hre : rightOf e with
        | none => simp [lones, k1 x hle]
        | some y => simp [lones, k1 x hle, k2 y hre]
    rw [this]; rfl
  have i2 : insertEntry (e :: (lones (leftOf e') none ++ others c l r)) e' = e' :: e :: others c l r := by
    rw [insertEntry_eq, r2, List.filter_cons_of_pos (by simp [clash_iff.2 d2]), List.filter_append]
    rw [show (others c l r).filter (fun x => !clash e' x) = others c l r from List.filter_eq_self.2 fun x hx => by simp [(c1 x hx).2]]
    have : (lones (leftOf e') (none : Option R)).filter (fun x => !clash e' x) = [] := by
      cases hle : leftOf e' with
      | none => rfl
      | some x =>
        have : clash e' (someLeft x) = true := by simp [clash, hle, hasL]
        simp [lones, this]
    rw [this]; rfl
  show (insertEntry (insertEntry _ e) e').Perm c
  rw [i1, i2]
  exact (List.Perm.swap e e' _).trans hp

/-- C130, `pair_forced_remove`: the same, though the former partners are gone from the map. -/
theorem C130_pairForcedRemove (h : Reachable m) (hc : Shows m c) (l : L) (r : R) (hl : m.containsLeft l = true)
    (hr : m.containsRight r = true) (hn : m.arePaired l r = false) : ∃ o a b m₁ m₂ m₃,
    m.pairForcedRemove l r = .ok (o, m₁) ∧ m₁.remove l r = .ok (some (a, b), m₂) ∧ m₂.extend (former a b o) = .ok m₃ ∧ Shows m₃ c := by
  have h := h.repr_of_shows hc
  have o1 := h.oneToOne
  rw [hc.arePaired] at hn
  have hl : (findL c l).isSome = true := by rw [hc.containsLeft] at hl; simpa [findL] using hl
  have hr : (findR c r).isSome = true := by rw [hc.containsRight] at hr; simpa [findR] using hr
  obtain ⟨e, hf⟩ := Option.isSome_iff_exists.1 hl
  obtain ⟨e', hf'⟩ := Option.isSome_iff_exists.1 hr
  obtain ⟨a, b, ha, hb, hla, hrb, he, he', hp, d1, d2, n1, n2, hd⟩ := apart_entries o1 hf hf' hn
  obtain ⟨m₁, e₁, h₁, -⟩ := pairForcedRemove_refines h l r
  have hq : PartialSpec.pairForcedRemove c l r = (ofPair (leftOf e', rightOf e), someBoth a b :: others c l r) := by
    simp [PartialSpec.pairForcedRemove, hf, hf', hn, ha, hb]
  rw [hq] at e₁ h₁
  obtain ⟨m₂, e₂, h₂, -⟩ := remove_refines h₁ l r
  have he0 : eraseL (someBoth a b :: others c l r) l = others c l r := by
    rw [eraseL, List.filter_cons_of_neg (by simp [hasL, hla]), List.filter_eq_self]
    intro x hx
    simp [not_mem_others hx]
  have hrem : PartialSpec.remove (someBoth a b :: others c l r) l r = (some (a, b), others c l r) := by
    rw [PartialSpec.remove, he0]
    simp [hasPair, hasL, hasR, hla, hrb, findL, pairOf]
  rw [hrem] at e₂ h₂
  obtain ⟨m₃, e₃, h₃, -⟩ := extend_refines h₂ (former a b (ofPair (leftOf e', rightOf e)))
  refine ⟨_, a, b, m₁, m₂, m₃, e₁, e₂, e₃, (h₃.perm (insertAll_fits o1 ?_)).shows⟩
  have hform : former a b (ofPair (leftOf e', rightOf e)) = [e, e'] := by
    simp only [former]
    have g1 : (ofPair (leftOf e', rightOf e)).getRight = rightOf e := by cases leftOf e' <;> cases rightOf e <;> rfl
    have g2 : (ofPair (leftOf e', rightOf e)).getLeft = leftOf e' := by cases leftOf e' <;> cases rightOf e <;> rfl
    rw [g1, g2, ← he, ← he']
  have r1 : real e = [e] := by rw [he]; cases rightOf e <;> rfl
  have r2 : real e' = [e'] := by rw [he']; cases leftOf e' <;> rfl
  rw [hform]
  simpa [r1, r2] using hp

/-- `insert 1 20` pushes out two pairs -/
example : ∃ x y m₁ m₂ m₃, demo.insert 1 20 = .ok ((x, y), m₁) ∧ m₁.remove 1 20 = .ok (some (1, 20), m₂) ∧ m₂.extend [x, y] = .ok m₃ ∧
    Shows m₃ [someRight 30, someLeft 3, someBoth 2 20, someBoth 1 10] := C130_insert demo_reachable demo_shows 1 20

example : ∃ e m₁ m₂ m₃, demo.insertLeft 1 = .ok (e, m₁) ∧ m₁.removeViaLeft 1 = .ok (someLeft 1, m₂) ∧ m₂.extend [e] = .ok m₃ ∧
    Shows m₃ [someRight 30, someLeft 3, someBoth 2 20, someBoth 1 10] := C130_insertLeft demo_reachable demo_shows 1

/-- `swap_left(1, 3)` pushes out the lone 3 -/
example : ∃ a q m₁ m₂ m₃, demo.swapLeft 1 3 = .ok (ofPair (some a, q), m₁) ∧ m₁.swapLeft 3 a = .ok (.someLeft 3, m₂) ∧
    m₂.extend q.toList = .ok m₃ ∧ Shows m₃ [someRight 30, someLeft 3, someBoth 2 20, someBoth 1 10] :=
  C130_swapLeft demo_reachable demo_shows 1 3 (by rw [demo_shows.containsLeft]; rfl)

example : ∃ b q m₁ m₂ m₃, demo.swapRight 30 10 = .ok (ofPair (some b, q), m₁) ∧ m₁.swapRight 10 b = .ok (.someLeft 10, m₂) ∧
    m₂.extend q.toList = .ok m₃ ∧ Shows m₃ [someRight 30, someLeft 3, someBoth 2 20, someBoth 1 10] :=
  C130_swapRight demo_reachable demo_shows 30 10 (by rw [demo_shows.containsRight]; rfl)

example : ∃ m₁ m₂, demo.unpair 2 20 = (true, m₁) ∧ m₁.pair 2 20 = (true, m₂) ∧
    Shows m₂ [someRight 30, someLeft 3, someBoth 2 20, someBoth 1 10] :=
  C130_unpair demo_reachable demo_shows 2 20 (by rw [demo_shows.arePaired]; rfl)

example : ∃ m₁ m₂, demo.pair 3 30 = (true, m₁) ∧ m₁.unpair 3 30 = (true, m₂) ∧
    Shows m₂ [someRight 30, someLeft 3, someBoth 2 20, someBoth 1 10] := by
  refine C130_pair demo_reachable demo_shows 3 30 ?_
  obtain ⟨m', e, -⟩ := pair_refines (demo_reachable.repr_of_shows demo_shows) 3 30
  rw [e]; rfl

/-- both items of `pair_forced(1, 20)` have another partner -/
example : ∃ o a b m₁ m₂ m₃, demo.pairForced 1 20 = .ok (o, m₁) ∧ m₁.remove 1 20 = .ok (some (a, b), m₂) ∧
    m₂.extend (former a b o) = .ok m₃ ∧ Shows m₃ [someRight 30, someLeft 3, someBoth 2 20, someBoth 1 10] :=
  C130_pairForced demo_reachable demo_shows 1 20 (by rw [demo_shows.containsLeft]; rfl) (by rw [demo_shows.containsRight]; rfl)
    (by rw [demo_shows.arePaired]; rfl)

example : ∃ o a b m₁ m₂ m₃, demo.pairForcedRemove 1 20 = .ok (o, m₁) ∧ m₁.remove 1 20 = .ok (some (a, b), m₂) ∧
    m₂.extend (former a b o) = .ok m₃ ∧ Shows m₃ [someRight 30, someLeft 3, someBoth 2 20, someBoth 1 10] :=
  C130_pairForcedRemove demo_reachable demo_shows 1 20 (by rw [demo_shows.containsLeft]; rfl) (by rw [demo_shows.containsRight]; rfl)
    (by rw [demo_shows.arePaired]; rfl)

end Verif.PartialMap

namespace Verif.GroupMap
open GroupSpec Demo

variable [RawImpl] [LawfulRaw] {L R : Type} [BEq L] [BEq R] [EquivBEq L] [EquivBEq R]
variable {m : GroupMap L R} {c d : Contents L R}

/-- the items that bring a removed group back: the right item, then its left items -/
def refill (o : Option (List L × R)) : List (Option L × R) :=
  o.toList.flatMap fun x => (none, x.2) :: x.1.map fun l => (some l, x.2)

theorem insertAll_lefts {b : R} (ls : List L) : ∀ d : Contents L R, findR d b = some b →
    ls.Pairwise (fun x y => (x == y) = false) → (∀ l ∈ ls, ∀ p ∈ d.pairs, (l == p.1) = false) →
    NewPairs d (ls.map fun l => (some l, b)) ∧
      insertAll d (ls.map fun l => (some l, b)) = ⟨d.rights, (ls.map fun l => (l, b)).reverse ++ d.pairs⟩ := by
  induction ls with
  | nil => intro d _ _ _; exact ⟨trivial, rfl⟩
  | cons l ls ih =>
    intro d hb hd hn
    have hf : findL d l = none := by
      rw [findL, List.find?_eq_none]
      intro p hp; simp [hn l (.head _) p hp]
    have he : (eraseL d l).pairs = d.pairs := by
      rw [eraseL, List.filter_eq_self]
      intro p hp; simp [hn l (.head _) p hp]
    have hi : GroupSpec.insert d l b = ⟨d.rights, (l, b) :: d.pairs⟩ := by
      simp only [GroupSpec.insert, hf, hb, he]; rfl
    obtain ⟨hd1, hd2⟩ := List.pairwise_cons.1 hd
    obtain ⟨h1, h2⟩ := ih ⟨d.rights, (l, b) :: d.pairs⟩ hb hd2 fun k hk p hp => by
      rcases List.mem_cons.1 hp with rfl | hp
      · rw [Bool.eq_false_iff]
        intro hh
        have := hd1 k hk
        rw [PartialEquivBEq.symm hh] at this; cases this
      · exact hn k (.tail _ hk) p hp
    refine ⟨⟨?_, ?_⟩, ?_⟩
    · rw [hasPair, List.any_eq_false]
      intro p hp; simp [hn l (.head _) p hp]
    · rw [hi]; exact h1
    · simp only [List.map_cons, insertAll, hi, h2]
      simp

theorem refill_fits (h : c.Sound) (r : R) {o : Option (List L × R)} (ho : SameEntry o (entryR c r)) :
    NewPairs (eraseR c r) (refill o) ∧ (insertAll (eraseR c r) (refill o)).Same c := by
  cases hr : findR c r with
  | none =>
    rw [entryR, hr] at ho
    cases o with
    | some => cases ho
    | none =>
      refine ⟨trivial, ?_⟩
      show (eraseR c r).Same c
      have := List.find?_eq_none.1 hr
      have h1 : (eraseR c r).rights = c.rights :=
        List.filter_eq_self.2 fun b hb => by simpa using this b hb
      have h2 : (eraseR c r).pairs = c.pairs :=
        List.filter_eq_self.2 fun p hp => by simpa using this p.2 (h.owned p hp)
      exact ⟨.of_eq h1, .of_eq h2⟩
  | some b =>
    rw [entryR, hr] at ho
    cases o with
    | none => cases ho
    | some x =>
      obtain ⟨ls, b'⟩ := x
      obtain ⟨ho, rfl⟩ := ho
      simp only at ho
      have hrb : (r == b') = true := List.find?_some (p := fun y => r == y) hr
      have hsym {x : R} : (b' == x) = (r == x) := by
        rw [Bool.eq_iff_iff]
        exact ⟨fun k => PartialEquivBEq.trans hrb k, fun k => PartialEquivBEq.trans (PartialEquivBEq.symm hrb) k⟩
      have hown : ∀ p ∈ c.pairs, (r == p.2) = true → p.2 = b' := by
        intro p hp hh
        have h1 := find_eraseR_perm h r
        rw [hr] at h1
        have h2 := h1.symm.subset (h.owned p hp)
        simp only [Option.toList_some, List.cons_append, List.nil_append, List.mem_cons] at h2
        rcases h2 with h2 | h2
        · exact h2
        · have := (List.mem_filter.1 h2).2
          rw [hh] at this; cases this
      have hins : (GroupSpec.insertRight (eraseR c r) b').2 = ⟨b' :: (eraseR c r).rights, (eraseR c r).pairs⟩ := by
        simp only [GroupSpec.insertRight, eraseR, hsym, List.filter_filter, Bool.and_self]
      have hlefts : (group c r).Pairwise fun x y => (x == y) = false :=
        (List.pairwise_map.2 (h.lefts.sublist List.filter_sublist))
      have hns : ∀ {x y : L}, (x == y) = false → (y == x) = false := fun hxy => by
        rw [Bool.eq_false_iff]; intro hh
        rw [PartialEquivBEq.symm hh] at hxy; cases hxy
      have hdis : ∀ l ∈ ls, ∀ p ∈ (eraseR c r).pairs, (l == p.1) = false := by
        intro l hl p hp
        have hl := ho.subset hl
        obtain ⟨q, hq, rfl⟩ := List.mem_map.1 hl
        have hsp := (List.filter_append_perm (fun p : L × R => r == p.2) c.pairs)
        have := h.lefts.perm hsp.symm fun hxy => hns hxy
        exact (List.pairwise_append.1 this).2.2 q hq p hp
      obtain ⟨h1, h2⟩ := insertAll_lefts ls ⟨b' :: (eraseR c r).rights, (eraseR c r).pairs⟩ (b := b') (by simp [findR])
        (hlefts.perm ho.symm fun hxy => hns hxy) hdis
      have hre : refill (some (ls, b')) = (none, b') :: ls.map fun l => (some l, b') := by simp [refill]
      rw [hre]
      refine ⟨?_, ?_⟩
      · show NewPairs (GroupSpec.insertRight (eraseR c r) b').2 _
        rw [hins]; exact h1
      · show (insertAll (GroupSpec.insertRight (eraseR c r) b').2 _).Same c
        rw [hins, h2]
        constructor
        · have h1 := find_eraseR_perm h r
          rw [hr] at h1
          exact h1
        · refine .trans (.append_right _ (List.reverse_perm _)) ?_
          refine .trans (.append_right _ ((ho.map fun l => (l, b')))) ?_
          have : ((group c r).map fun l => (l, b')) = c.pairs.filter fun p => r == p.2 := by
            rw [group, List.map_map]
            refine (List.map_congr_left (g := id) fun p hp => ?_).trans (List.map_id _)
            have hp := List.mem_filter.1 hp
            simp only [Function.comp, id]
            rw [← hown p hp.1 hp.2]
          rw [this]
          exact List.filter_append_perm (fun p : L × R => r == p.2) c.pairs

/-- C130, `remove_right`: extending by the group it returned restores the map. -/
theorem C130_removeRight (h : Reachable m) (hc : Shows m c) (r : R) : ∃ o m₁ m₂,
    m.removeRight r = .ok (o, m₁) ∧ m₁.extendOpt (refill o) = .ok m₂ ∧ Shows m₂ c := by
  have h := h.repr_of_shows hc
  obtain ⟨o, m₁, e₁, ho, h₁, -⟩ := removeRight_refines h r
  obtain ⟨hn, hs⟩ := refill_fits h.sound r ho
  obtain ⟨m₂, e₂, h₂, -⟩ := extendOpt_refines h₁ _ hn
  exact ⟨o, m₁, m₂, e₁, e₂, (h₂.same hs).shows⟩

/-- C130, `insert_right`: remove the new item, and extend by the group that was returned. -/
theorem C130_insertRight (h : Reachable m) (hc : Shows m c) (r : R) : ∃ o m₁ m₂ m₃,
    m.insertRight r = .ok (o, m₁) ∧ m₁.removeRight r = .ok (some ([], r), m₂) ∧ m₂.extendOpt (refill o) = .ok m₃ ∧
      Shows m₃ c := by
  have h := h.repr_of_shows hc
  obtain ⟨o, m₁, e₁, ho, h₁, -⟩ := insertRight_refines h r
  obtain ⟨q, m₂, e₂, hq, h₂, -⟩ := removeRight_refines h₁ r
  have hf : findR (GroupSpec.insertRight c r).2 r = some r := by simp [GroupSpec.insertRight, findR]
  have hg : group (GroupSpec.insertRight c r).2 r = [] := by
    simp [GroupSpec.insertRight, group, eraseR]
  rw [entryR, hf, hg] at hq
  have he : eraseR (GroupSpec.insertRight c r).2 r = eraseR c r := by
    simp [GroupSpec.insertRight, eraseR, List.filter_filter]
  rw [he] at h₂
  obtain ⟨hn, hs⟩ := refill_fits h.sound r ho
  obtain ⟨m₃, e₃, h₃, -⟩ := extendOpt_refines h₂ _ hn
  refine ⟨o, m₁, m₂, m₃, e₁, ?_, e₃, (h₃.same hs).shows⟩
  cases q with
  | none => cases hq
  | some x =>
    obtain ⟨a, b⟩ := x
    obtain ⟨hq1, hq2⟩ := hq
    simp only at hq1 hq2
    rw [e₂, hq2, hq1.eq_nil]

/-- C130, `remove` of a pair takes the whole group with it; extending by it restores the map. -/
theorem C130_remove (h : Reachable m) (hc : Shows m c) (l : L) (r : R) : ∃ o m₁ m₂,
    m.remove l r = .ok (o, m₁) ∧ m₁.extendOpt (refill o) = .ok m₂ ∧ Shows m₂ c := by
  have h := h.repr_of_shows hc
  obtain ⟨o, m₁, e₁, ho, h₁, -⟩ := remove_refines h l r
  by_cases hp : hasPair c l r = true
  · simp only [GroupSpec.remove, if_pos hp] at ho h₁
    obtain ⟨hn, hs⟩ := refill_fits h.sound r ho
    obtain ⟨m₂, e₂, h₂, -⟩ := extendOpt_refines h₁ _ hn
    exact ⟨o, m₁, m₂, e₁, e₂, (h₂.same hs).shows⟩
  · simp only [GroupSpec.remove, if_neg hp] at ho h₁
    cases o with
    | some => cases ho
    | none => exact ⟨none, m₁, m₁, e₁, rfl, h₁.shows⟩

theorem findR_of_findL (h : c.Sound) {l : L} {p : L × R} (hp : findL c l = some p) : findR c p.2 = some p.2 := by
  have hm := h.owned p (List.mem_of_find?_eq_some hp)
  have hi : (findR c p.2).isSome := List.find?_isSome.2 ⟨p.2, hm, beq_self_eq_true _⟩
  obtain ⟨b, hb⟩ := Option.isSome_iff_exists.1 hi
  have h1 := find_eraseR_perm h p.2
  rw [hb] at h1
  have h2 := h1.symm.subset hm
  simp only [Option.toList_some, List.cons_append, List.nil_append, List.mem_cons] at h2
  rcases h2 with h2 | h2
  · rw [hb, ← h2]
  · have := (List.mem_filter.1 h2).2
    simp at this

theorem of_getRight (hc : Shows m c) {l : L} {b : R} (hb : m.getRight l = some b) : ∃ a, findL c l = some (a, b) := by
  rw [hc.getRight] at hb
  obtain ⟨p, hp, rfl⟩ := Option.map_eq_some_iff.1 hb
  exact ⟨p.1, hp⟩

/-- moving the left item back to its right item -/
theorem back (h : c.Sound) {l : L} {a : L} {b : R} (hl : findL c l = some (a, b)) : (Contents.mk c.rights ((a, b) :: (eraseL c l).pairs)).Same c := by
  refine ⟨.refl _, ?_⟩
  have := find_eraseL_perm h l
  rw [hl] at this
  exact this

theorem eraseL_cons {l a : L} {b : R} (hla : (l == a) = true) :
    (eraseL (Contents.mk c.rights ((a, b) :: (eraseL c l).pairs)) l).pairs = (eraseL c l).pairs := by
  simp [eraseL, hla, List.filter_filter]

/-- C130, `remove_left`: insert what it returned, with the right item that `get_right` named before. -/
theorem C130_removeLeft (h : Reachable m) (hc : Shows m c) (l : L) (b : R) (hb : m.getRight l = some b) : ∃ a m₁ m₂,
    m.removeLeft l = .ok (some a, m₁) ∧ m₁.insertLeft a b = .ok (none, m₂) ∧ Shows m₂ c := by
  have h := h.repr_of_shows hc
  obtain ⟨a, hl⟩ := of_getRight hc hb
  obtain ⟨m₁, e₁, h₁, -⟩ := removeLeft_refines h l
  rw [hl] at e₁
  obtain ⟨m₂, e₂, h₂, -⟩ := insertLeft_refines h₁ a b
  have hr : findR (eraseL c l) b = some b := findR_of_findL h.sound hl
  have hla : (l == a) = true := List.find?_some (p := fun y : L × R => l == y.1) hl
  have hlx {x : L} : (a == x) = (l == x) := by
    rw [Bool.eq_iff_iff]
    exact ⟨fun k => PartialEquivBEq.trans hla k, fun k => PartialEquivBEq.trans (PartialEquivBEq.symm hla) k⟩
  have hn : findL (eraseL c l) a = none := by
    rw [findL, List.find?_eq_none]
    intro p hp
    have := (List.mem_filter.1 hp).2
    rw [hlx]; simpa using this
  have he : (eraseL (eraseL c l) a).pairs = (eraseL c l).pairs := by
    simp [eraseL, hlx, List.filter_filter]
  simp only [GroupSpec.insertLeft, hr, hn, he, Option.map_none] at e₂ h₂
  exact ⟨a, m₁, m₂, e₁, e₂, (h₂.same (back h.sound hl)).shows⟩

/-- C130, `insert_left` of a left item that is there already: it returns the item it replaced, and inserting that one
with the right item that `get_right` named before restores the map. -/
theorem C130_insertLeft (h : Reachable m) (hc : Shows m c) (l : L) (r b : R) (hb : m.getRight l = some b)
    (hr : m.containsRight r = true) : ∃ a m₁ m₂,
    m.insertLeft l r = .ok (some a, m₁) ∧ m₁.insertLeft a b = .ok (some l, m₂) ∧ Shows m₂ c := by
  have h := h.repr_of_shows hc
  obtain ⟨a, hl⟩ := of_getRight hc hb
  rw [hc.containsRight] at hr
  obtain ⟨b', hb'⟩ := Option.isSome_iff_exists.1 (List.find?_isSome.2 (List.any_eq_true.1 hr))
  have hb' : findR c r = some b' := hb'
  obtain ⟨m₁, e₁, h₁, -⟩ := insertLeft_refines h l r
  simp only [GroupSpec.insertLeft, hb', hl, Option.map_some] at e₁ h₁
  obtain ⟨m₂, e₂, h₂, -⟩ := insertLeft_refines h₁ a b
  have hla : (l == a) = true := List.find?_some (p := fun y : L × R => l == y.1) hl
  have hlx {x : L} : (a == x) = (l == x) := by
    rw [Bool.eq_iff_iff]
    exact ⟨fun k => PartialEquivBEq.trans hla k, fun k => PartialEquivBEq.trans (PartialEquivBEq.symm hla) k⟩
  have hf : findR (Contents.mk c.rights ((l, b') :: (eraseL c l).pairs)) b = some b := findR_of_findL h.sound hl
  have hg : findL (Contents.mk c.rights ((l, b') :: (eraseL c l).pairs)) a = some (l, b') := by
    simp [findL, hlx]
  have he : (eraseL (Contents.mk c.rights ((l, b') :: (eraseL c l).pairs)) a).pairs = (eraseL c l).pairs := by
    simp [eraseL, hlx, List.filter_filter]
  simp only [GroupSpec.insertLeft, hf, hg, he, Option.map_some] at e₂ h₂
  exact ⟨a, m₁, m₂, e₁, e₂, (h₂.same (back h.sound hl)).shows⟩

/-- C130, `insert_left` of a new left item: `remove_left` hands exactly this item back. -/
theorem C130_insertLeft_new (h : Reachable m) (hc : Shows m c) (l : L) (r : R) (hl : m.containsLeft l = false)
    (hr : m.containsRight r = true) : ∃ m₁ m₂,
    m.insertLeft l r = .ok (none, m₁) ∧ m₁.removeLeft l = .ok (some l, m₂) ∧ Shows m₂ c := by
  have h := h.repr_of_shows hc
  rw [hc.containsRight] at hr
  rw [hc.containsLeft, List.any_eq_false] at hl
  obtain ⟨b', hb'⟩ := Option.isSome_iff_exists.1 (List.find?_isSome.2 (List.any_eq_true.1 hr))
  have hb' : findR c r = some b' := hb'
  have hn : findL c l = none := List.find?_eq_none.2 hl
  have he : (eraseL c l).pairs = c.pairs := by
    rw [eraseL, List.filter_eq_self]
    intro p hp; simpa using hl p hp
  obtain ⟨m₁, e₁, h₁, -⟩ := insertLeft_refines h l r
  simp only [GroupSpec.insertLeft, hb', hn, Option.map_none] at e₁ h₁
  obtain ⟨m₂, e₂, h₂, -⟩ := removeLeft_refines h₁ l
  have hs : (eraseL (Contents.mk c.rights ((l, b') :: (eraseL c l).pairs)) l).Same c :=
    ⟨.refl _, .of_eq ((eraseL_cons (beq_self_eq_true l)).trans he)⟩
  refine ⟨m₁, m₂, e₁, ?_, (h₂.same hs).shows⟩
  rw [e₂]; simp [findL]

/-- C130, `pair`: pair the left item with the right item that `get_right` named before. -/
theorem C130_pair (h : Reachable m) (hc : Shows m c) (l : L) (r b : R) (hb : m.getRight l = some b)
    (hr : m.containsRight r = true) : ∃ m₁ m₂,
    m.pair l r = .ok (true, m₁) ∧ m₁.pair l b = .ok (true, m₂) ∧ Shows m₂ c := by
  have h := h.repr_of_shows hc
  obtain ⟨a, hl⟩ := of_getRight hc hb
  rw [hc.containsRight] at hr
  obtain ⟨b', hb'⟩ := Option.isSome_iff_exists.1 (List.find?_isSome.2 (List.any_eq_true.1 hr))
  have hb' : findR c r = some b' := hb'
  have hla : (l == a) = true := List.find?_some (p := fun y : L × R => l == y.1) hl
  obtain ⟨m₁, e₁, h₁, -⟩ := pair_refines h l r
  simp only [GroupSpec.pair, hb', hl] at e₁ h₁
  obtain ⟨m₂, e₂, h₂, -⟩ := pair_refines h₁ l b
  have hf : findR (Contents.mk c.rights ((a, b') :: (eraseL c l).pairs)) b = some b := findR_of_findL h.sound hl
  have hg : findL (Contents.mk c.rights ((a, b') :: (eraseL c l).pairs)) l = some (a, b') := by
    simp [findL, hla]
  simp only [GroupSpec.pair, hf, hg, eraseL_cons hla] at e₂ h₂
  exact ⟨m₁, m₂, e₁, e₂, (h₂.same (back h.sound hl)).shows⟩

/-! The hypotheses on the demo map (a group of two, a group of one, a lone right item). -/

example : ∃ o m₁ m₂, demo.removeRight 10 = .ok (o, m₁) ∧ m₁.extendOpt (refill o) = .ok m₂ ∧ Shows m₂ demoC :=
  C130_removeRight demo_reachable demo_shows 10

example : ∃ o m₁ m₂ m₃, demo.insertRight 10 = .ok (o, m₁) ∧ m₁.removeRight 10 = .ok (some ([], 10), m₂) ∧
    m₂.extendOpt (refill o) = .ok m₃ ∧ Shows m₃ demoC :=
  C130_insertRight demo_reachable demo_shows 10

example : ∃ o m₁ m₂, demo.remove 1 10 = .ok (o, m₁) ∧ m₁.extendOpt (refill o) = .ok m₂ ∧ Shows m₂ demoC :=
  C130_remove demo_reachable demo_shows 1 10

example : ∃ a m₁ m₂, demo.removeLeft 1 = .ok (some a, m₁) ∧ m₁.insertLeft a 10 = .ok (none, m₂) ∧ Shows m₂ demoC :=
  C130_removeLeft demo_reachable demo_shows 1 10 (by rw [demo_shows.getRight]; rfl)

example : ∃ a m₁ m₂, demo.insertLeft 1 20 = .ok (some a, m₁) ∧ m₁.insertLeft a 10 = .ok (some 1, m₂) ∧ Shows m₂ demoC :=
  C130_insertLeft demo_reachable demo_shows 1 20 10 (by rw [demo_shows.getRight]; rfl) (by rw [demo_shows.containsRight]; rfl)

example : ∃ m₁ m₂, demo.insertLeft 7 30 = .ok (none, m₁) ∧ m₁.removeLeft 7 = .ok (some 7, m₂) ∧ Shows m₂ demoC :=
  C130_insertLeft_new demo_reachable demo_shows 7 30 (by rw [demo_shows.containsLeft]; rfl) (by rw [demo_shows.containsRight]; rfl)

example : ∃ m₁ m₂, demo.pair 1 30 = .ok (true, m₁) ∧ m₁.pair 1 10 = .ok (true, m₂) ∧ Shows m₂ demoC :=
  C130_pair demo_reachable demo_shows 1 30 10 (by rw [demo_shows.getRight]; rfl) (by rw [demo_shows.containsRight]; rfl)

end Verif.GroupMap
