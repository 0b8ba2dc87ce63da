import Verif.CycleMap.Repair
import Verif.Props.DropEnd
import Verif.Props.CycleIter
/-! Property C133 (with C134 and C135 in RepairPartial and RepairGroup): small changes to the code after which the documentation is true.  (Each of the statements refuted before
can be met: the same statement holds of the changed call.) -/
set_option linter.unusedSectionVars false
set_option linter.unusedSimpArgs false
namespace Verif.CycleMap
open CycleSpec OptionalPair Demo

variable [RawImpl] [LawfulRaw] {L R τ : Type} [BEq L] [BEq R] [EquivBEq L] [EquivBEq R]
variable {m : CycleMap L R} {c : List (L × R)}

/-! ### C133 -/

/-- C133, for C13 and C15: with the check at the start, the swaps of an absent item do nothing at all, and of a present item they are the swaps. -/
theorem C133_swap (hc : Shows m c) :
    (∀ old new : L, ((∀ p ∈ c, (old == p.1) = false) → Repair.swapLeft m old new = .ok (neither, m)) ∧
      ((∃ p ∈ c, (old == p.1) = true) → Repair.swapLeft m old new = m.swapLeft old new)) ∧
    (∀ old new : R, ((∀ p ∈ c, (old == p.2) = false) → Repair.swapRight m old new = .ok (neither, m)) ∧
      ((∃ p ∈ c, (old == p.2) = true) → Repair.swapRight m old new = m.swapRight old new)) := by
  refine ⟨fun old new => ⟨fun ho => ?_, fun ho => ?_⟩, fun old new => ⟨fun ho => ?_, fun ho => ?_⟩⟩
  · rw [Repair.swapLeft, hc.containsLeft, List.any_eq_false.2 (by simpa using ho)]; rfl
  · rw [Repair.swapLeft, hc.containsLeft, List.any_eq_true.2 (by simpa using ho)]; rfl
  · rw [Repair.swapRight, hc.containsRight, List.any_eq_false.2 (by simpa using ho)]; rfl
  · rw [Repair.swapRight, hc.containsRight, List.any_eq_true.2 (by simpa using ho)]; rfl

/-- the witness of `C13_false` -/
example : Repair.swapLeft demo 7 2 = .ok (neither, demo) := ((C133_swap demo_shows).1 7 2).1 (by decide)

theorem find?_single {α : Type} {p : α → Bool} {c : List α} {a : α} (ha : a ∈ c) (h : ∀ q ∈ c, p q = true → q = a) :
    c.find? p = if p a then some a else none := by
  split
  · rename_i hp
    cases hf : c.find? p with
    | none => exact absurd hp (by simpa using List.find?_eq_none.1 hf a ha)
    | some b => rw [h b (List.mem_of_find?_eq_some hf) (List.find?_some hf)]
  · rename_i hp
    refine List.find?_eq_none.2 fun q hq hpq => ?_
    rw [h q hq hpq] at hpq; exact hp hpq

/-- C133, for C17: with `old` absent the pair is inserted; a single displaced pair is handed back whole, and of two of them
the return type has no place for the right item of one. -/
theorem C133_swap_left_or_insert (h : Reachable m) (hc : Shows m c) (old new : L) (r : R) :
    ((∃ p ∈ c, (old == p.1) = true) → Repair.swapLeftOrInsert m old new r = m.swapLeft old new) ∧
    ((∀ p ∈ c, (old == p.1) = false) → ∃ o m', Repair.swapLeftOrInsert m old new r = .ok (o, m') ∧
      UsableAs m' ((new, r) :: c.filter fun p => !(new == p.1) && !(r == p.2)) ∧
      (∀ p ∈ c, (∀ q ∈ c, ((new == q.1) = true ∨ (r == q.2) = true) ↔ q = p) → o = someRight p) ∧
      (∀ p ∈ c, ∀ q ∈ c, p ≠ q → (new == p.1) = true → (r == q.2) = true → o = someBoth p.1 q) ∧
      ((∀ p ∈ c, (new == p.1) = false ∧ (r == p.2) = false) → o = neither)) := by
  have hr := h.repr_of_shows hc
  refine ⟨fun ⟨p, hp, ho⟩ => ?_, fun ho => ?_⟩
  · rw [Repair.swapLeftOrInsert, findL_isSome hr, findL_of_mem hc.oneToOne hp ho]; rfl
  · obtain ⟨m', e, h', -⟩ := insert_refines hr new r
    obtain ⟨o, m'', e', ht⟩ := C08_insert_returns h hc new r
    rw [e] at e'; cases e'
    have hu := h'.usable
    have ho' : (findL c old).isSome = false := by rw [findL_none ho]; rfl
    have hx : ∀ p ∈ c, (new == p.1) = true → c.find? (fun p => new == p.1) = some p := fun p hp hn => findL_of_mem hc.oneToOne hp hn
    have hy : ∀ q ∈ c, (r == q.2) = true → (new == q.1) = false → c.find? (fun p => r == p.2 && !(new == p.1)) = some q := fun q hq hn hn' => by
      rw [find?_single hq fun a ha hp => ?_, if_pos (by simp [hn, hn'])]
      have := findR_of_mem hc.oneToOne hq hn
      rw [findR_of_mem hc.oneToOne ha (by simp at hp; exact hp.1)] at this
      exact Option.some.inj this
    have hx0 : (∀ p ∈ c, (new == p.1) = false) → c.find? (fun p => new == p.1) = none := fun H =>
      List.find?_eq_none.2 (by simpa using H)
    have hy0 : (∀ p ∈ c, (r == p.2) = true → (new == p.1) = true) → c.find? (fun p => r == p.2 && !(new == p.1)) = none := fun H =>
      List.find?_eq_none.2 (by simpa using H)
    generalize (CycleSpec.insert c new r).1 = o at e ht
    have ho2 : o = ofPair (c.find? (fun p => new == p.1), c.find? fun p => r == p.2 && !(new == p.1)) := by
      rw [← ht]; cases o <;> rfl
    subst ho2
    refine ⟨match c.find? (fun p => new == p.1), c.find? (fun p => r == p.2 && !(new == p.1)) with
      | none, none => neither
      | some p, none => someRight p
      | none, some p => someRight p
      | some p, some q => someBoth p.1 q, m', ?_, hu, ?_, ?_, ?_⟩
    · rw [Repair.swapLeftOrInsert, findL_isSome hr, ho']
      simp only [e, bind, Except.bind, Bool.false_eq_true, if_false]
      cases c.find? (fun p => new == p.1) <;> cases c.find? (fun p => r == p.2 && !(new == p.1)) <;> rfl
    · intro p hp H
      cases hn : new == p.1 with
      | true => rw [hx p hp hn, hy0 fun q hq hrq => by rw [(H q hq).1 (.inr hrq)]; exact hn]
      | false =>
        have hrp : (r == p.2) = true := ((H p hp).2 rfl).resolve_left (by simp [hn])
        rw [hy p hp hrp hn, hx0 fun q hq => ?_]
        cases hnq : new == q.1 with
        | false => rfl
        | true => rw [(H q hq).1 (.inl hnq), hn] at hnq; cases hnq
    · intro p hp q hq hpq hn hrq
      have hnq : (new == q.1) = false := by
        cases hnq : new == q.1 with
        | false => rfl
        | true => exact absurd (Option.some.inj ((hx p hp hn).symm.trans (hx q hq hnq))) hpq
      rw [hx p hp hn, hy q hq hrq hnq]
    · intro H
      rw [hx0 fun p hp => (H p hp).1, hy0 fun p hp hrp => by rw [(H p hp).2] at hrp; cases hrp]

/-- the witness of `C17_false`: the whole pair `(2, 20)` is handed back -/
example : ∃ o m', Repair.swapLeftOrInsert demo 7 2 99 = .ok (o, m') ∧ o = someRight (2, 20) ∧ Shows m' [(2, 99), (3, 30), (1, 10)] := by
  obtain ⟨o, m', e, h, h1, _⟩ := (C133_swap_left_or_insert demo_reachable demo_shows 7 2 99).2 (by decide)
  exact ⟨o, m', e, h1 (2, 20) (by decide) (by decide), h.1⟩

/-- C133, for C18: no panic; with `old` absent the pair is inserted and a single displaced pair is handed back whole; of two of them
the return type has no place for the left item of one. -/
theorem C133_swap_right_or_insert (h : Reachable m) (hc : Shows m c) (old new : R) (l : L) :
    ((∃ p ∈ c, (old == p.2) = true) → Repair.swapRightOrInsert m old new l = m.swapRight old new) ∧
    ((∀ p ∈ c, (old == p.2) = false) → ∃ o m', Repair.swapRightOrInsert m old new l = .ok (o, m') ∧
      UsableAs m' ((l, new) :: c.filter fun p => !(l == p.1) && !(new == p.2)) ∧
      (∀ p ∈ c, (∀ q ∈ c, ((l == q.1) = true ∨ (new == q.2) = true) ↔ q = p) → o = someRight p) ∧
      (∀ p ∈ c, ∀ q ∈ c, p ≠ q → (l == p.1) = true → (new == q.2) = true → o = someBoth q.2 p) ∧
      ((∀ p ∈ c, (l == p.1) = false ∧ (new == p.2) = false) → o = neither)) := by
  have hr := h.repr_of_shows hc
  refine ⟨fun ⟨p, hp, ho⟩ => ?_, fun ho => ?_⟩
  · rw [Repair.swapRightOrInsert, findR_isSome hr, findR_of_mem hc.oneToOne hp ho]; rfl
  · obtain ⟨m', e, h', -⟩ := insert_refines hr l new
    obtain ⟨o, m'', e', ht⟩ := C08_insert_returns h hc l new
    rw [e] at e'; cases e'
    have hu := h'.usable
    have ho' : (findR c old).isSome = false := by rw [findR_none ho]; rfl
    have hx : ∀ p ∈ c, (l == p.1) = true → c.find? (fun p => l == p.1) = some p := fun p hp hn => findL_of_mem hc.oneToOne hp hn
    have hy : ∀ q ∈ c, (new == q.2) = true → (l == q.1) = false → c.find? (fun p => new == p.2 && !(l == p.1)) = some q := fun q hq hn hn' => by
      rw [find?_single hq fun a ha hp => ?_, if_pos (by simp [hn, hn'])]
      have := findR_of_mem hc.oneToOne hq hn
      rw [findR_of_mem hc.oneToOne ha (by simp at hp; exact hp.1)] at this
      exact Option.some.inj this
    have hx0 : (∀ p ∈ c, (l == p.1) = false) → c.find? (fun p => l == p.1) = none := fun H =>
      List.find?_eq_none.2 (by simpa using H)
    have hy0 : (∀ p ∈ c, (new == p.2) = true → (l == p.1) = true) → c.find? (fun p => new == p.2 && !(l == p.1)) = none := fun H =>
      List.find?_eq_none.2 (by simpa using H)
    generalize (CycleSpec.insert c l new).1 = o at e ht
    have ho2 : o = ofPair (c.find? (fun p => l == p.1), c.find? fun p => new == p.2 && !(l == p.1)) := by
      rw [← ht]; cases o <;> rfl
    subst ho2
    refine ⟨match c.find? (fun p => l == p.1), c.find? (fun p => new == p.2 && !(l == p.1)) with
      | none, none => neither
      | some p, none => someRight p
      | none, some p => someRight p
      | some p, some q => someBoth q.2 p, m', ?_, hu, ?_, ?_, ?_⟩
    · rw [Repair.swapRightOrInsert, findR_isSome hr, ho']
      simp only [e, bind, Except.bind, Bool.false_eq_true, if_false]
      cases c.find? (fun p => l == p.1) <;> cases c.find? (fun p => new == p.2 && !(l == p.1)) <;> rfl
    · intro p hp H
      cases hn : l == p.1 with
      | true => rw [hx p hp hn, hy0 fun q hq hrq => by rw [(H q hq).1 (.inr hrq)]; exact hn]
      | false =>
        have hrp : (new == p.2) = true := ((H p hp).2 rfl).resolve_left (by simp [hn])
        rw [hy p hp hrp hn, hx0 fun q hq => ?_]
        cases hnq : l == q.1 with
        | false => rfl
        | true => rw [(H q hq).1 (.inl hnq), hn] at hnq; cases hnq
    · intro p hp q hq hpq hn hrq
      have hnq : (l == q.1) = false := by
        cases hnq : l == q.1 with
        | false => rfl
        | true => exact absurd (Option.some.inj ((hx p hp hn).symm.trans (hx q hq hnq))) hpq
      rw [hx p hp hn, hy q hq hrq hnq]
    · intro H
      rw [hx0 fun p hp => (H p hp).1, hy0 fun p hp hrp => by rw [(H p hp).2] at hrp; cases hrp]

/-- the call panics as it is (`C18_panics`) -/
example : ∃ o m', Repair.swapRightOrInsert demo 70 20 1 = .ok (o, m') ∧ o = someBoth 20 (1, 10) ∧ Shows m' [(1, 20), (3, 30)] := by
  obtain ⟨o, m', e, h, _, h2, _⟩ := (C133_swap_right_or_insert demo_reachable demo_shows 70 20 1).2 (by decide)
  exact ⟨o, m', e, h2 (1, 10) (by decide) (2, 20) (by decide) (by decide) rfl rfl, h.1⟩

/-- C133, for C21: wherever `drain` is stopped, the pairs yielded were pairs of the map, and the map is empty. -/
theorem C133_drain (h : Reachable m) (hc : Shows m c) (n : Nat) :
    ∃ (d : List (L × R)) (m' : CycleMap L R), d.Perm c ∧ Repair.drainTake m n = .ok (d.take n, m') ∧ UsableAs m' [] := by
  obtain ⟨d, m', hp, e, -, -, hl, -⟩ := drainTake_refines (h.repr_of_shows hc) n
  refine ⟨d, { m' with right := m'.right.clear }, hp, by rw [Repair.drainTake, e]; rfl, ?_⟩
  refine Repr.usable ⟨[], ⟨by simp [hl], by simp [RawTable.clear_entries], by simp, by simp⟩, by simp⟩

/-- one pair taken, two left: nothing stays behind, and 20 can be inserted again -/
example : ∃ (d : List (Nat × Nat)) (m' : CycleMap Nat Nat) (o : OptionalPair (Nat × Nat) (Nat × Nat)) (m'' : CycleMap Nat Nat),
    Repair.drainTake demo 1 = .ok (d.take 1, m') ∧ m'.insert 5 20 = .ok (o, m'') := by
  obtain ⟨d, m', -, e, -, h⟩ := C133_drain demo_reachable demo_shows 1
  obtain ⟨os, m'', -, e', -⟩ := h [.insert 5 20] ⟨by simp [Safe], fun _ _ _ => trivial⟩
  simp only [run, exec, bind, Except.bind] at e'
  cases hi : m'.insert 5 20 with
  | error x => rw [hi] at e'; cases e'
  | ok x => exact ⟨d, m', x.1, x.2, e, hi⟩

/-- C133, for C122: `clear` with the guard drops the items as the drop of the map does (C132), and however it ends, the map is empty then. -/
theorem C133_clear (m : CycleMap L R) (d : τ → L ⊕ R → Bool × τ) (t : τ) :
    ∃ (e : Ending) (t' : τ) (m' : CycleMap L R), Repair.clearD m d t = (e, t', m') ∧ m.dropMap d t = (e, t') ∧ UsableAs m' [] :=
  ⟨_, _, _, rfl, rfl, (clear_refines m).usable⟩

/-- a destructor that panics the first time it is run (see `C122_false` for what `clear` does then) -/
example : ∃ (e : Ending) (t' : Nat) (m' : CycleMap Nat Nat), Repair.clearD demo (fun (t : Nat) _ => (t == 0, t + 1)) 0 = (e, t', m') ∧
    e = .panicked ∧ t' = 4 ∧ Shows m' [] := by
  obtain ⟨e, t', m', h1, h2, h3⟩ := C133_clear demo (fun (t : Nat) (_ : Nat ⊕ Nat) => (t == 0, t + 1)) 0
  have : (demo.dropMap (fun (t : Nat) (_ : Nat ⊕ Nat) => (t == 0, t + 1)) 0) = (.panicked, 4) := by
    have hl := demo_shows.iterLeft.length_eq
    have hr := demo_shows.iterRight.length_eq
    simp only [iterLeft, iterRight, List.length_map] at hl hr
    match h1 : demo.left.toList, hl, h2 : demo.right.toList, hr with
    | [_, _, _], _, [_, _, _], _ => simp [dropMap, h1, h2, dropTwo, dropUntil]
  rw [this] at h2; cases h2
  exact ⟨_, _, m', h1, rfl, rfl, h3.1⟩

end Verif.CycleMap
