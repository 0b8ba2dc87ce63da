import Verif.Props.PartialBasic
/-! Properties C46–C49 of `PartialCycleMap`: swaps. -/
set_option linter.unusedSectionVars false
set_option linter.unusedSimpArgs false
namespace Verif.PartialMap
open PartialSpec OptionalPair Demo

variable [RawImpl] [LawfulRaw] {L R : Type} [BEq L] [BEq R] [EquivBEq L] [EquivBEq R]
variable {m : PartialMap L R} {c : List (OptionalPair L R)}

/-! ### C46 -/

theorem other_entry_L {old new : L} : (if new == old then none else findL c new) = c.find? fun e => hasL new e && !hasL old e := by
  cases hn : new == old with
  | true =>
    symm; rw [if_pos rfl, List.find?_eq_none]
    intro e _
    rw [hasL_congr hn]; simp
  | false =>
    simp only [Bool.false_eq_true, if_false, findL]
    congr 1; funext e
    cases h1 : hasL new e with
    | false => rfl
    | true =>
      cases h2 : hasL old e with
      | false => rfl
      | true =>
        exfalso
        have h3 : ∃ a, (new == a) = true ∧ (old == a) = true := by
          cases e <;> simp [hasL] at h1 h2 <;> exact ⟨_, h1, h2⟩
        obtain ⟨a, h3, h4⟩ := h3
        rw [BEq.trans h3 (BEq.symm h4)] at hn; cases hn

theorem other_entry_R {old new : R} : (if new == old then none else findR c new) = c.find? fun e => hasR new e && !hasR old e := by
  cases hn : new == old with
  | true =>
    symm; rw [if_pos rfl, List.find?_eq_none]
    intro e _
    rw [hasR_congr hn]; simp
  | false =>
    simp only [Bool.false_eq_true, if_false, findR]
    congr 1; funext e
    cases h1 : hasR new e with
    | false => rfl
    | true =>
      cases h2 : hasR old e with
      | false => rfl
      | true =>
        exfalso
        have h3 : ∃ a, (new == a) = true ∧ (old == a) = true := by
          cases e <;> simp [hasR] at h1 h2 <;> exact ⟨_, h1, h2⟩
        obtain ⟨a, h3, h4⟩ := h3
        rw [BEq.trans h3 (BEq.symm h4)] at hn; cases hn

/-- C46 for `swap_left`: the entry of `old` keeps its right item, if any, and gets the left item `new`;
another entry of `new` goes; returned are the old item and that other entry. -/
theorem C46_swap_left_present (h : Reachable m) (hc : Shows m c) (old new : L) :
    (∀ a b, someBoth a b ∈ c → (old == a) = true → ∃ o m', m.swapLeft old new = .ok (o, m') ∧
      toPair o = (some a, c.find? fun e => hasL new e && !hasL old e) ∧
      Shows m' (someBoth new b :: c.filter fun e => !hasL old e && !hasL new e)) ∧
    (∀ a, someLeft a ∈ c → (old == a) = true → ∃ o m', m.swapLeft old new = .ok (o, m') ∧
      toPair o = (some a, c.find? fun e => hasL new e && !hasL old e) ∧
      Shows m' (someLeft new :: c.filter fun e => !hasL old e && !hasL new e)) := by
  have h := h.repr_of_shows hc
  obtain ⟨m', e, h', _⟩ := swapLeft_refines h old new
  constructor
  · intro a b hm hl
    simp only [PartialSpec.swapLeft, mem_findL h.oneToOne hm (l := old) hl, other_entry_L] at e h'
    exact ⟨_, m', e, (OptionalPair.C01_pair_roundtrip).2 _, h'.shows⟩
  · intro a hm hl
    simp only [PartialSpec.swapLeft, mem_findL h.oneToOne hm (l := old) hl, other_entry_L] at e h'
    exact ⟨_, m', e, (OptionalPair.C01_pair_roundtrip).2 _, h'.shows⟩

example : ∃ o m', demo.swapLeft 1 3 = .ok (o, m') ∧ toPair o = (some 1, some (someLeft 3)) ∧
    Shows m' [someBoth 3 10, someRight 30, someBoth 2 20] :=
  (C46_swap_left_present demo_reachable demo_shows 1 3).1 1 10 (by simp) rfl
example : ∃ o m', demo.swapLeft 3 1 = .ok (o, m') ∧ toPair o = (some 3, some (someBoth 1 10)) ∧
    Shows m' [someLeft 1, someRight 30, someBoth 2 20] :=
  (C46_swap_left_present demo_reachable demo_shows 3 1).2 3 (by simp) rfl

/-- C46 for `swap_right`. -/
theorem C46_swap_right_present (h : Reachable m) (hc : Shows m c) (old new : R) :
    (∀ a b, someBoth a b ∈ c → (old == b) = true → ∃ o m', m.swapRight old new = .ok (o, m') ∧
      toPair o = (some b, c.find? fun e => hasR new e && !hasR old e) ∧
      Shows m' (someBoth a new :: c.filter fun e => !hasR old e && !hasR new e)) ∧
    (∀ b, someRight b ∈ c → (old == b) = true → ∃ o m', m.swapRight old new = .ok (o, m') ∧
      toPair o = (some b, c.find? fun e => hasR new e && !hasR old e) ∧
      Shows m' (someRight new :: c.filter fun e => !hasR old e && !hasR new e)) := by
  have h := h.repr_of_shows hc
  obtain ⟨m', e, h', _⟩ := swapRight_refines h old new
  constructor
  · intro a b hm hl
    simp only [PartialSpec.swapRight, mem_findR h.oneToOne hm (r := old) hl, other_entry_R] at e h'
    exact ⟨_, m', e, (OptionalPair.C01_pair_roundtrip).2 _, h'.shows⟩
  · intro a hm hl
    simp only [PartialSpec.swapRight, mem_findR h.oneToOne hm (r := old) hl, other_entry_R] at e h'
    exact ⟨_, m', e, (OptionalPair.C01_pair_roundtrip).2 _, h'.shows⟩

example : ∃ o m', demo.swapRight 10 20 = .ok (o, m') ∧ toPair o = (some 10, some (someBoth 2 20)) ∧
    Shows m' [someBoth 1 20, someRight 30, someLeft 3] :=
  (C46_swap_right_present demo_reachable demo_shows 10 20).1 1 10 (by simp) rfl
example : ∃ o m', demo.swapRight 30 40 = .ok (o, m') ∧ toPair o = (some 30, none) ∧
    Shows m' [someRight 40, someLeft 3, someBoth 2 20, someBoth 1 10] :=
  (C46_swap_right_present demo_reachable demo_shows 30 40).2 30 (by simp) rfl

/-! ### C47 -/

/-- C47 as documented ("if there is no such item, `Neither` is returned and the map is unchanged").  False,
see `C47_false`. -/
def C47_full : Prop :=
  ∀ [RawImpl] [LawfulRaw] (L R : Type) [BEq L] [BEq R] [EquivBEq L] [EquivBEq R] (m : PartialMap L R)
    (c : List (OptionalPair L R)), Reachable m → Shows m c →
    (∀ old new : L, (∀ e ∈ c, hasL old e = false) → ∃ m', m.swapLeft old new = .ok (neither, m') ∧ Shows m' c) ∧
    (∀ old new : R, (∀ e ∈ c, hasR old e = false) → ∃ m', m.swapRight old new = .ok (neither, m') ∧ Shows m' c)

/-- what happens instead: an entry of `new` is removed, and not returned -/
theorem C47_actual (h : Reachable m) (hc : Shows m c) :
    (∀ old new : L, (∀ e ∈ c, hasL old e = false) →
      ∃ m', m.swapLeft old new = .ok (neither, m') ∧ Shows m' (c.filter fun e => !hasL new e)) ∧
    (∀ old new : R, (∀ e ∈ c, hasR old e = false) →
      ∃ m', m.swapRight old new = .ok (neither, m') ∧ Shows m' (c.filter fun e => !hasR new e)) := by
  have h := h.repr_of_shows hc
  constructor
  · intro old new ho
    obtain ⟨m', e, h', _⟩ := swapLeft_refines h old new
    simp only [PartialSpec.swapLeft, findL_none ho] at e h'
    exact ⟨m', e, h'.shows⟩
  · intro old new ho
    obtain ⟨m', e, h', _⟩ := swapRight_refines h old new
    simp only [PartialSpec.swapRight, findR_none ho] at e h'
    exact ⟨m', e, h'.shows⟩

/-- C47 holds when `new` is absent, too.  Missing: the case where `new` is present. -/
theorem C47_partial (h : Reachable m) (hc : Shows m c) :
    (∀ old new : L, (∀ e ∈ c, hasL old e = false) → (∀ e ∈ c, hasL new e = false) →
      ∃ m', m.swapLeft old new = .ok (neither, m') ∧ Shows m' c) ∧
    (∀ old new : R, (∀ e ∈ c, hasR old e = false) → (∀ e ∈ c, hasR new e = false) →
      ∃ m', m.swapRight old new = .ok (neither, m') ∧ Shows m' c) := by
  constructor
  · intro old new ho hn
    obtain ⟨m', e, h'⟩ := (C47_actual h hc).1 old new ho
    rw [List.filter_eq_self.2 (by simpa using hn)] at h'
    exact ⟨m', e, h'⟩
  · intro old new ho hn
    obtain ⟨m', e, h'⟩ := (C47_actual h hc).2 old new ho
    rw [List.filter_eq_self.2 (by simpa using hn)] at h'
    exact ⟨m', e, h'⟩

example : ∃ m', demo.swapLeft 7 8 = .ok (neither, m') ∧ Shows m' [someRight 30, someLeft 3, someBoth 2 20, someBoth 1 10] :=
  (C47_partial demo_reachable demo_shows).1 7 8 (by simp [hasL]) (by simp [hasL])

omit [RawImpl] [LawfulRaw] in
/-- the witness: `swap_left(7, 2)` loses the pair `(2, 20)` -/
theorem C47_false : ¬ C47_full := by
  intro h
  letI := messyRaw; haveI := messyRaw_lawful
  obtain ⟨m', e, s⟩ := (h Nat Nat demo _ demo_reachable demo_shows).1 7 2 (by simp [hasL])
  obtain ⟨m'', e', s'⟩ := (C47_actual demo_reachable demo_shows).1 7 2 (by simp [hasL])
  rw [e] at e'; cases e'
  have := s.lenLeft.symm.trans s'.lenLeft
  revert this; decide

/-! ### C48 -/

/-- C48: the checked swaps are the swaps if the given items are partners; otherwise they return `Neither`
and change nothing at all. -/
theorem C48_swap_checked (h : Reachable m) (hc : Shows m c) :
    (∀ (old : L) (expected : R) (new : L),
      ((∃ a b, someBoth a b ∈ c ∧ (old == a) = true ∧ (expected == b) = true) →
        m.swapLeftChecked old expected new = m.swapLeft old new) ∧
      ((¬ ∃ a b, someBoth a b ∈ c ∧ (old == a) = true ∧ (expected == b) = true) →
        m.swapLeftChecked old expected new = .ok (neither, m))) ∧
    (∀ (old : R) (expected : L) (new : R),
      ((∃ a b, someBoth a b ∈ c ∧ (old == b) = true ∧ (expected == a) = true) →
        m.swapRightChecked old expected new = m.swapRight old new) ∧
      ((¬ ∃ a b, someBoth a b ∈ c ∧ (old == b) = true ∧ (expected == a) = true) →
        m.swapRightChecked old expected new = .ok (neither, m))) := by
  have q := (C42_queries h hc).2.2.2.2.1
  constructor
  · intro old x new
    refine ⟨fun h => ?_, fun h => ?_⟩
    · rw [swapLeftChecked, (q old x).2 h]; rfl
    · rw [← q old x] at h
      rw [swapLeftChecked, Bool.eq_false_iff.2 h]; rfl
  · intro old x new
    have e : (∃ a b, someBoth a b ∈ c ∧ (old == b) = true ∧ (x == a) = true) ↔ m.arePaired x old = true := by
      rw [q]
      constructor <;> rintro ⟨a, b, h1, h2, h3⟩ <;> exact ⟨a, b, h1, h3, h2⟩
    rw [e]
    refine ⟨fun h => ?_, fun h => ?_⟩
    · rw [swapRightChecked, h]; rfl
    · rw [swapRightChecked, Bool.eq_false_iff.2 h]; rfl

example : demo.swapLeftChecked 1 20 5 = .ok (neither, demo) :=
  ((C48_swap_checked demo_reachable demo_shows).1 1 20 5).2 (by simp)
example : ∃ o m', demo.swapLeftChecked 1 10 5 = .ok (o, m') ∧ toPair o = (some 1, none) ∧
    Shows m' [someBoth 5 10, someRight 30, someLeft 3, someBoth 2 20] := by
  rw [((C48_swap_checked demo_reachable demo_shows).1 1 10 5).1 ⟨1, 10, by simp, rfl, rfl⟩]
  exact (C46_swap_left_present demo_reachable demo_shows 1 5).1 1 10 (by simp) rfl

/-! ### C49 -/

/-- C49 in full.  False: both calls can panic, see `C49_false`. -/
def C49_full : Prop :=
  ∀ [RawImpl] [LawfulRaw] (L R : Type) [BEq L] [BEq R] [EquivBEq L] [EquivBEq R] (m : PartialMap L R)
    (c : List (OptionalPair L R)), Reachable m → Shows m c →
    (∀ (old new : L) (r : R), ((∃ e ∈ c, hasL old e = true) → m.swapLeftOrInsert old new r = m.swapLeft old new) ∧
      ((∀ e ∈ c, hasL old e = false) → ∃ o m', m.swapLeftOrInsert old new r = .ok (o, m') ∧
        Shows m' (someBoth new r :: c.filter fun e => !hasL new e && !hasR r e) ∧
        ∀ e ∈ c, (∀ x ∈ c, (hasL new x = true ∨ hasR r x = true) ↔ x = e) → (toPair o).2 = some e)) ∧
    (∀ (old new : R) (l : L), ((∃ e ∈ c, hasR old e = true) → m.swapRightOrInsert old new l = m.swapRight old new) ∧
      ((∀ e ∈ c, hasR old e = false) → ∃ o m', m.swapRightOrInsert old new l = .ok (o, m') ∧
        Shows m' (someBoth l new :: c.filter fun e => !hasL l e && !hasR new e) ∧
        ∀ e ∈ c, (∀ x ∈ c, (hasL l x = true ∨ hasR new x = true) ↔ x = e) → (toPair o).2 = some e))

/-- C49, what holds.  With `old` present these are the swaps.  With `old` absent, and if `new` is absent, too
(for `swap_right_or_insert`: or already paired with the other item), the pair is inserted and the displaced
entry of the other item returned.  Missing: the remaining cases, all of which panic, see `C49_panics`. -/
theorem C49_partial (h : Reachable m) (hc : Shows m c) :
    (∀ (old new : L) (r : R), ((∃ e ∈ c, hasL old e = true) → m.swapLeftOrInsert old new r = m.swapLeft old new) ∧
      ((∀ e ∈ c, hasL old e = false) → (∀ e ∈ c, hasL new e = false) →
        ∃ o m', m.swapLeftOrInsert old new r = .ok (o, m') ∧ toPair o = (none, c.find? fun e => hasR r e) ∧
        Shows m' (someBoth new r :: c.filter fun e => !hasL new e && !hasR r e))) ∧
    (∀ (old new : R) (l : L), ((∃ e ∈ c, hasR old e = true) → m.swapRightOrInsert old new l = m.swapRight old new) ∧
      ((∀ e ∈ c, hasR old e = false) → (∀ e ∈ c, hasR new e = true → hasL l e = true) →
        ∃ o m', m.swapRightOrInsert old new l = .ok (o, m') ∧ toPair o = (none, c.find? fun e => hasL l e) ∧
        Shows m' (someBoth l new :: c.filter fun e => !hasL l e && !hasR new e))) := by
  have h := h.repr_of_shows hc
  constructor
  · intro old new r
    constructor
    · rintro ⟨e, he, hl⟩
      unfold swapLeftOrInsert
      rw [findL_isSome h, mem_findL h.oneToOne he hl]; rfl
    · intro ho hn
      obtain ⟨m', e, h', _⟩ := swapLeftOrInsert_refines h old new r (.inr (findL_none hn))
      simp only [findL_none ho, Option.isSome_none, Bool.false_eq_true, if_false] at e h'
      exact ⟨_, m', e, (OptionalPair.C01_pair_roundtrip).2 _, h'.shows⟩
  · intro old new l
    constructor
    · rintro ⟨e, he, hl⟩
      unfold swapRightOrInsert
      rw [findR_isSome h, mem_findR h.oneToOne he hl]; rfl
    · intro ho hn
      have hs : hasPair c l new = true ∨ findR c new = none := by
        cases hf : findR c new with
        | none => exact .inr rfl
        | some e =>
          have ⟨hm, hr⟩ := hc.findR_mem hf
          exact .inl (List.any_eq_true.2 ⟨e, hm, by simp [hn e hm hr, hr]⟩)
      obtain ⟨m', e, h', _⟩ := swapRightOrInsert_refines h old new l (.inr hs)
      simp only [findR_none ho, Option.isSome_none, Bool.false_eq_true, if_false] at e h'
      exact ⟨_, m', e, (OptionalPair.C01_pair_roundtrip).2 _, h'.shows⟩

/-- C49: the remaining cases hit `unreachable!`. -/
theorem C49_panics (h : Reachable m) (hc : Shows m c) :
    (∀ (old new : L) (r : R), (∀ e ∈ c, hasL old e = false) → (∃ e ∈ c, hasL new e = true) →
      m.swapLeftOrInsert old new r = .error .unreachable) ∧
    (∀ (old new : R) (l : L), (∀ e ∈ c, hasR old e = false) → (∃ e ∈ c, hasR new e = true ∧ hasL l e = false) →
      m.swapRightOrInsert old new l = .error .unreachable) := by
  have h := h.repr_of_shows hc
  constructor
  · rintro old new r ho ⟨e, he, hl⟩
    refine swapLeftOrInsert_panics h old new r ?_
    rw [findL_none ho, mem_findL h.oneToOne he hl]; simp
  · rintro old new l ho ⟨e, he, hr, hl⟩
    refine swapRightOrInsert_panics h old new l ?_
    have fr := mem_findR h.oneToOne he hr
    rw [findR_none ho, hasPair_eq' h.oneToOne, fr]; simp [hl]

example : ∃ o m', demo.swapLeftOrInsert 7 8 20 = .ok (o, m') ∧ toPair o = (none, some (someBoth 2 20)) ∧
    Shows m' [someBoth 8 20, someRight 30, someLeft 3, someBoth 1 10] :=
  ((C49_partial demo_reachable demo_shows).1 7 8 20).2 (by simp [hasL]) (by simp [hasL])
example : ∃ o m', demo.swapRightOrInsert 70 10 1 = .ok (o, m') ∧ toPair o = (none, some (someBoth 1 10)) ∧
    Shows m' [someBoth 1 10, someRight 30, someLeft 3, someBoth 2 20] :=
  ((C49_partial demo_reachable demo_shows).2 70 10 1).2 (by simp [hasR]) (by simp [hasL, hasR])
example : demo.swapLeftOrInsert 7 3 99 = .error .unreachable :=
  (C49_panics demo_reachable demo_shows).1 7 3 99 (by simp [hasL]) ⟨someLeft 3, by simp, rfl⟩

omit [RawImpl] [LawfulRaw] in
/-- the witness: `swap_left_or_insert(7, 3, 99)` panics -/
theorem C49_false : ¬ C49_full := by
  intro h
  letI := messyRaw; haveI := messyRaw_lawful
  obtain ⟨o, m', e, _⟩ := ((h Nat Nat demo _ demo_reachable demo_shows).1 7 3 99).2 (by simp [hasL])
  rw [(C49_panics demo_reachable demo_shows).1 7 3 99 (by simp [hasL]) ⟨someLeft 3, by simp, rfl⟩] at e
  cases e

end Verif.PartialMap
