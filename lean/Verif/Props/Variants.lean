import Verif.Props.CycleBasic
import Verif.Props.PartialBasic
/-!
Property C140: the variants of `OptionalPair` that a call or an iterator is documented never to return.

The notes are at cycle_map.rs 328 (`swap_left`), 394 (`swap_left_checked`), 478 (`swap_right`), 545 (`swap_right_checked`), 575
(`swap_right_or_insert`) and partial_cycle_map.rs 200 (`insert_left`), 247 (`insert_right`), 705 (`remove_via_left`), 763
(`remove_via_right`), 823 (`swap_left`), 978 (`swap_right`), 1230 (`iter`), 1277 (`iter_unpaired`).
-/
set_option linter.unusedSectionVars false
namespace Verif
open OptionalPair

theorem OptionalPair.ofPair_some_ne {A B : Type} (a : A) (o : Option B) (b : B) : ofPair (some a, o) ≠ someRight b := by
  cases o <;> simp [ofPair]

/-- C140, the notes of `CycleMap` on a map `m`, all but the one of `swap_right_or_insert` -/
def CycleMap.KeepsNotes [RawImpl] {L R : Type} [BEq L] [BEq R] (m : CycleMap L R) : Prop :=
  (∀ old new o m', m.swapLeft old new = .ok (o, m') → ∀ p, o ≠ someRight p) ∧
  (∀ old e new o m', m.swapLeftChecked old e new = .ok (o, m') → ∀ p, o ≠ someRight p) ∧
  (∀ old new o m', m.swapRight old new = .ok (o, m') → ∀ p, o ≠ someRight p) ∧
  (∀ old e new o m', m.swapRightChecked old e new = .ok (o, m') → ∀ p, o ≠ someRight p)

/-- C140, the notes of `PartialCycleMap` on a map `m`, all but the one of `insert_left` -/
def PartialMap.KeepsNotes [RawImpl] {L R : Type} [BEq L] [BEq R] (m : PartialMap L R) : Prop :=
  (∀ r o m', m.insertRight r = .ok (o, m') → ∀ a, o ≠ someLeft a) ∧
  (∀ l o m', m.removeViaLeft l = .ok (o, m') → ∀ b, o ≠ someRight b) ∧
  (∀ r o m', m.removeViaRight r = .ok (o, m') → ∀ a, o ≠ someLeft a) ∧
  (∀ old new o m', m.swapLeft old new = .ok (o, m') → ∀ x, o ≠ someRight x) ∧
  (∀ old new o m', m.swapRight old new = .ok (o, m') → ∀ x, o ≠ someRight x) ∧
  neither ∉ m.iterList ∧
  (∀ e ∈ m.iterUnpairedList, e ≠ neither ∧ ∀ a b, e ≠ someBoth a b)

/-- C140 in full: all the notes are true.  False, see `C140_false`. -/
def C140_full : Prop :=
  ∀ [RawImpl] [LawfulRaw] (L R : Type) [BEq L] [BEq R] [EquivBEq L] [EquivBEq R],
    (∀ m : CycleMap L R, CycleMap.Reachable m → m.KeepsNotes ∧
      ∀ old new l o m', m.swapRightOrInsert old new l = .ok (o, m') → ∀ p, o ≠ someRight p) ∧
    (∀ m : PartialMap L R, PartialMap.Reachable m → m.KeepsNotes ∧
      ∀ l o m', m.insertLeft l = .ok (o, m') → ∀ a, o ≠ someLeft a)

section Cycle
open CycleMap
variable [RawImpl] {L R : Type} [BEq L] [BEq R]

/-- C140 for `CycleMap`: these notes are true of every map, in whatever state and whatever `==` is.
Missing: `swap_right_or_insert`, see `C140_actual_cycle`. -/
theorem C140_cycle_partial (m : CycleMap L R) : m.KeepsNotes := by
  have sl : ∀ (m : CycleMap L R) old new o m', m.swapLeft old new = .ok (o, m') → ∀ p, o ≠ someRight p := by
    intro m old new o m' e p
    simp only [swapLeft, bind, Except.bind, pure, Except.pure] at e
    repeat' split at e
    all_goals cases e
    · simp
    · exact ofPair_some_ne _ _ _
  have sr : ∀ (m : CycleMap L R) old new o m', m.swapRight old new = .ok (o, m') → ∀ p, o ≠ someRight p := by
    intro m old new o m' e p
    simp only [swapRight, bind, Except.bind, pure, Except.pure] at e
    repeat' split at e
    all_goals cases e
    · simp
    · exact ofPair_some_ne _ _ _
  refine ⟨sl m, ?_, sr m, ?_⟩
  · intro old ex new o m' e
    rw [swapLeftChecked] at e
    split at e
    · cases e; simp
    · exact sl _ _ _ _ _ e
  · intro old ex new o m' e
    rw [swapRightChecked] at e
    split at e
    · cases e; simp
    · exact sr _ _ _ _ _ e

end Cycle

section Partial
open PartialMap
variable [RawImpl] {L R : Type} [BEq L] [BEq R]

theorem PartialMap.removeViaLeft_notRight (m : PartialMap L R) (l o m') (e : m.removeViaLeft l = .ok (o, m')) (b : R) :
    o ≠ someRight b := by
  simp only [removeViaLeft] at e
  repeat' split at e
  all_goals cases e
  all_goals simp [ofPair]

theorem PartialMap.removeViaRight_notLeft (m : PartialMap L R) (r o m') (e : m.removeViaRight r = .ok (o, m')) (a : L) :
    o ≠ someLeft a := by
  simp only [removeViaRight] at e
  repeat' split at e
  all_goals cases e
  all_goals simp [ofPair]

theorem PartialMap.UnpairedIter.nextR_lone (todo : List (MappingPair R)) {e : OptionalPair L R} {it}
    (h : UnpairedIter.nextR todo = some (e, it)) : e ≠ neither ∧ ∀ a b, e ≠ someBoth a b := by
  induction todo with
  | nil => simp [UnpairedIter.nextR] at h
  | cons r rest ih =>
    rw [UnpairedIter.nextR] at h
    split at h
    · exact ih h
    · cases h; simp

theorem PartialMap.UnpairedIter.next_lone (todoR : List (MappingPair R)) (todo : List (MappingPair L))
    {e : OptionalPair L R} {it} (h : UnpairedIter.next todoR todo = some (e, it)) :
    e ≠ neither ∧ ∀ a b, e ≠ someBoth a b := by
  induction todo with
  | nil => exact UnpairedIter.nextR_lone todoR h
  | cons l rest ih =>
    rw [UnpairedIter.next] at h
    split at h
    · exact ih h
    · cases h; simp

theorem PartialMap.UnpairedIter.take_lone (n : Nat) (it : UnpairedIter L R) :
    ∀ e ∈ (UnpairedIter.take n it).1, e ≠ neither ∧ ∀ a b, e ≠ someBoth a b := by
  induction n generalizing it with
  | zero => simp [UnpairedIter.take]
  | succ n ih =>
    intro e he
    rw [UnpairedIter.take] at he
    split at he
    · simp at he
    · rename_i o it' hn
      rcases List.mem_cons.1 he with rfl | he
      · exact UnpairedIter.next_lone _ _ hn
      · exact ih _ _ he

/-- C140 for `PartialCycleMap`: these notes are true of every map, in whatever state and whatever `==` is.
Missing: `insert_left`, see `C140_actual_partial`. -/
theorem C140_partial (m : PartialMap L R) : m.KeepsNotes := by
  refine ⟨?_, fun l o m' e => m.removeViaLeft_notRight l o m' e, fun r o m' e => m.removeViaRight_notLeft r o m' e, ?_, ?_, ?_,
    UnpairedIter.take_lone _ _⟩
  · intro r o m' e
    simp only [PartialMap.insertRight, bind, Except.bind, pure, Except.pure] at e
    split at e
    · cases e
    · rename_i v hv; cases e; exact m.removeViaRight_notLeft r _ _ hv
  · intro old new o m' e x
    simp only [PartialMap.swapLeft, bind, Except.bind, pure, Except.pure] at e
    repeat' split at e
    all_goals cases e
    all_goals simp
  · intro old new o m' e x
    simp only [PartialMap.swapRight, bind, Except.bind, pure, Except.pure] at e
    repeat' split at e
    all_goals cases e
    all_goals simp
  · intro h
    have : ∀ todo, neither ∉ Iter.collect m todo := by
      intro todo
      induction todo with
      | nil => simp [Iter.collect]
      | cons l rest ih =>
        simp only [Iter.collect, Iter.next, List.mem_cons, not_or]
        refine ⟨?_, ih⟩
        cases m.getRight l.value <;> simp [ofPair]
    exact this _ h

end Partial

section Actual
variable [RawImpl] [LawfulRaw] {L R : Type} [BEq L] [BEq R] [EquivBEq L] [EquivBEq R]

/-- C140, what `swap_right_or_insert` of `CycleMap` does instead: it returns `SomeRight` exactly if `old` and the left item are
missing and `new` is there, and what it returns is the pair of `new`. -/
theorem C140_actual_cycle {m : CycleMap L R} {c : List (L × R)} (h : CycleMap.Reachable m) (hc : CycleMap.Shows m c)
    (old new : R) (l : L) (p : L × R) :
    (∃ m', m.swapRightOrInsert old new l = .ok (someRight p, m')) ↔
      (∀ q ∈ c, (old == q.2) = false) ∧ (∀ q ∈ c, (l == q.1) = false) ∧ p ∈ c ∧ (new == p.2) = true := by
  constructor
  · rintro ⟨m', e⟩
    have ho : ∀ q ∈ c, (old == q.2) = false := by
      intro q hq
      cases ho : old == q.2
      · rfl
      · rw [(CycleMap.C18_partial h hc old new l).1 ⟨q, hq, ho⟩] at e
        exact absurd rfl ((C140_cycle_partial m).2.2.1 _ _ _ _ e p)
    have hl : ∀ q ∈ c, (l == q.1) = false := by
      intro q hq
      cases hl : l == q.1
      · rfl
      · obtain ⟨x, hx⟩ := (CycleMap.C18_panics h hc old new l).2 ⟨ho, q, hq, hl⟩
        rw [hx] at e; cases e
    obtain ⟨o, m2, e2, hp, -⟩ := (CycleMap.C18_partial h hc old new l).2 ho hl
    rw [e] at e2; cases e2
    have hf : (c.find? fun p => new == p.2) = some p := by simpa [toPair] using (congrArg Prod.snd hp).symm
    exact ⟨ho, hl, List.mem_of_find?_eq_some hf, List.find?_some (p := fun p : L × R => new == p.2) hf⟩
  · rintro ⟨ho, hl, hm, hn⟩
    obtain ⟨o, m', e, hp, -⟩ := (CycleMap.C18_partial h hc old new l).2 ho hl
    have hf := CycleSpec.findR_of_mem hc.oneToOne hm hn
    rw [CycleSpec.findR] at hf
    rw [hf] at hp
    have : o = someRight p := by cases o <;> simp_all [toPair]
    exact ⟨m', this ▸ e⟩

/-- C140, what `insert_left` of `PartialCycleMap` does instead: it returns `SomeLeft` exactly if an equal item is there without a
partner. -/
theorem C140_actual_partial {m : PartialMap L R} {c : List (OptionalPair L R)} (h : PartialMap.Reachable m)
    (hc : PartialMap.Shows m c) (l a : L) :
    (∃ m', m.insertLeft l = .ok (someLeft a, m')) ↔ someLeft a ∈ c ∧ (l == a) = true := by
  obtain ⟨m1, e1, -⟩ := (PartialMap.C37_insert_lone h hc).1 l
  constructor
  · rintro ⟨m', e⟩
    rw [e] at e1
    have h1 : someLeft a = (c.find? fun e => PartialSpec.hasL l e).getD neither := congrArg Prod.fst (Except.ok.inj e1)
    cases hf : c.find? fun e => PartialSpec.hasL l e with
    | none => rw [hf] at h1; cases h1
    | some x =>
      rw [hf] at h1; cases h1
      exact ⟨List.mem_of_find?_eq_some hf, by simpa [PartialSpec.hasL] using List.find?_some hf⟩
  · rintro ⟨hm, hl⟩
    have := PartialMap.mem_findL hc.oneToOne hm (l := l) (by simpa [PartialSpec.hasL] using hl)
    rw [PartialSpec.findL] at this
    rw [this] at e1
    exact ⟨m1, e1⟩

end Actual

/-- the witness: `insert_left(3)` on a map with a lone `3`, as in the example of the documentation itself (partial_cycle_map.rs
213) -/
theorem C140_false : ¬ C140_full := by
  intro h
  letI := messyRaw; haveI := messyRaw_lawful
  obtain ⟨m', e⟩ := (C140_actual_partial PartialMap.Demo.demo_reachable PartialMap.Demo.demo_shows 3 3).2 ⟨by simp, rfl⟩
  exact ((h Nat Nat).2 _ PartialMap.Demo.demo_reachable).2 3 _ _ e 3 rfl

/-- the note of `swap_right_or_insert` is false too: `swap_right_or_insert(70, 20, 9)` on a map with the pair `(2, 20)` -/
example : letI := messyRaw; ∃ m', CycleMap.Demo.demo.swapRightOrInsert 70 20 9 = .ok (someRight (2, 20), m') :=
  letI := messyRaw; haveI := messyRaw_lawful
  (C140_actual_cycle CycleMap.Demo.demo_reachable CycleMap.Demo.demo_shows 70 20 9 (2, 20)).2
    ⟨by decide, by decide, by decide, by decide⟩

end Verif
