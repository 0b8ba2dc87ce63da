import Verif.Props.CycleDemo
import Verif.Props.Optionals
/-! Properties C05–C18 of `CycleMap`. -/
set_option linter.unusedSectionVars false
namespace Verif.CycleMap
open CycleSpec OptionalPair Demo

variable [RawImpl] [LawfulRaw] {L R : Type} [BEq L] [BEq R] [EquivBEq L] [EquivBEq R]
variable {m : CycleMap L R} {c : List (L × R)}

/-! ### C05 -/

/-- C05: for every history of (safe) calls on a new map, whatever the hash builder and the table
implementation, no call panics, the results are those of a list of pairs, and at the end every observer
describes the map as that one-to-one list. -/
theorem C05_history (hb : BuildHasher L R) (ops : List (Op L R)) (hs : SafeRun [] ops) :
    ∃ os m' c', (withHasher hb).run ops = .ok (os, m') ∧ Steps [] ops os c' ∧ Shows m' c' := by
  obtain ⟨os, m', c', e, s, h⟩ := run_simulates (withHasher_repr hb) hs
  exact ⟨os, m', c', e, s, h.shows⟩

/-- C05 for `with_capacity`. -/
theorem C05_history_with_capacity (n : Nat) (hb : BuildHasher L R) (ops : List (Op L R)) (hs : SafeRun [] ops) :
    ∃ os m' c', (withCapacityAndHasher n hb).run ops = .ok (os, m') ∧ Steps [] ops os c' ∧ Shows m' c' := by
  obtain ⟨os, m', c', e, s, h⟩ := run_simulates (withCapacity_repr n hb) hs
  exact ⟨os, m', c', e, s, h.shows⟩

/-- C05, starting from any reachable map. -/
theorem C05_history_from (h : Reachable m) (hc : Shows m c) (ops : List (Op L R)) (hs : SafeRun c ops) :
    ∃ os m' c', m.run ops = .ok (os, m') ∧ Steps c ops os c' ∧ Shows m' c' := by
  obtain ⟨os, m', c', e, s, h⟩ := run_simulates (h.repr_of_shows hc) hs
  exact ⟨os, m', c', e, s, h.shows⟩

/-- C05: every reachable map is a one-to-one list of pairs to all observers. -/
theorem C05_reachable_shows (h : Reachable m) : ∃ c, Shows m c := by
  obtain ⟨c, hc⟩ := h.repr
  exact ⟨c, hc.shows⟩

/-- a history with a conflict, a swap, a stateful closure and an early-dropped `drain_filter` -/
example : SafeRun ([] : List (Nat × Nat))
    [.insert 1 10, .insert 2 20, .insert 2 10, .swapRight 10 30, .extend [(4, 40), (5, 50)],
     .drainFilter Nat (fun s _ _ => (s % 2 == 0, s + 1)) 0 1, .retain Nat (fun s l _ => (l < s, s)) 5, .iter, .clear] := by
  simp only [SafeRun, Safe, and_true, implies_true]

example : ∃ os m' c', demo.run [.insert 1 20, .iter] = .ok (os, m') ∧
    Steps [(3, 30), (2, 20), (1, 10)] [.insert 1 20, .iter] os c' ∧ Shows m' c' :=
  C05_history_from demo_reachable demo_shows _ (by simp [SafeRun, Safe])

/-! ### C06 -/

/-- C06: in every reachable map the two lookups are inverse to each other, every stored item has a
partner, and partners are unique. -/
theorem C06_lookups_inverse (h : Reachable m) :
    (∀ l r, m.getRight l = some r → ∃ l', m.getLeft r = some l' ∧ (l == l') = true) ∧
    (∀ r l, m.getLeft r = some l → ∃ r', m.getRight l = some r' ∧ (r == r') = true) ∧
    (∀ l ∈ m.iterLeft, ∃ r ∈ m.iterRight, m.getRight l = some r ∧ m.getLeft r = some l) ∧
    (∀ r ∈ m.iterRight, ∃ l ∈ m.iterLeft, m.getRight l = some r ∧ m.getLeft r = some l) ∧
    (∀ l r r', m.arePaired l r = true → m.arePaired l r' = true → (r == r') = true) ∧
    (∀ l l' r, m.arePaired l r = true → m.arePaired l' r = true → (l == l') = true) := by
  obtain ⟨c, hc⟩ := h.repr
  have s := hc.shows
  have key : ∀ p ∈ c, m.getRight p.1 = some p.2 ∧ m.getLeft p.2 = some p.1 := by
    intro p hp
    rw [s.getRight, s.getLeft, findL_of_mem s.oneToOne hp BEq.rfl, findR_of_mem s.oneToOne hp BEq.rfl]
    exact ⟨rfl, rfl⟩
  have pr : ∀ l r, m.arePaired l r = true → ∃ p ∈ c, (l == p.1) = true ∧ (r == p.2) = true := by
    intro l r h
    rw [s.arePaired, hasPair, List.any_eq_true] at h
    simpa using h
  refine ⟨?_, ?_, ?_, ?_, ?_, ?_⟩
  · intro l r e
    rw [s.getRight, Option.map_eq_some_iff] at e
    obtain ⟨p, hp, rfl⟩ := e
    exact ⟨p.1, (key p (findL_mem hp).1).2, (findL_mem hp).2⟩
  · intro r l e
    rw [s.getLeft, Option.map_eq_some_iff] at e
    obtain ⟨p, hp, rfl⟩ := e
    exact ⟨p.2, (key p (findR_mem hp).1).1, (findR_mem hp).2⟩
  · intro l hl
    obtain ⟨p, hp, rfl⟩ := List.mem_map.1 (s.iterLeft.mem_iff.1 hl)
    exact ⟨p.2, s.iterRight.mem_iff.2 (List.mem_map_of_mem hp), key p hp⟩
  · intro r hr
    obtain ⟨p, hp, rfl⟩ := List.mem_map.1 (s.iterRight.mem_iff.1 hr)
    exact ⟨p.1, s.iterLeft.mem_iff.2 (List.mem_map_of_mem hp), key p hp⟩
  · intro l r r' e e'
    obtain ⟨p, hp, h1, h2⟩ := pr l r e
    obtain ⟨q, hq, h3, h4⟩ := pr l r' e'
    rw [s.oneToOne.unique hp hq (.inl (BEq.trans (BEq.symm h1) h3))] at h2
    exact BEq.trans h2 (BEq.symm h4)
  · intro l l' r e e'
    obtain ⟨p, hp, h1, h2⟩ := pr l r e
    obtain ⟨q, hq, h3, h4⟩ := pr l' r e'
    rw [s.oneToOne.unique hp hq (.inr (BEq.trans (BEq.symm h2) h4))] at h1
    exact BEq.trans h1 (BEq.symm h3)

example : demo.getRight 2 = some 20 ∧ ∃ l', demo.getLeft 20 = some l' ∧ (2 == l') = true :=
  have e : demo.getRight 2 = some 20 := by rw [demo_shows.getRight]; rfl
  ⟨e, (C06_lookups_inverse demo_reachable).1 2 20 e⟩

/-! ### C07, C08 -/

/-- C07: after `insert(l, r)` the pairs are `(l, r)` and the old pairs sharing no item with it. -/
theorem C07_insert_effect (h : Reachable m) (hc : Shows m c) (l : L) (r : R) :
    ∃ o m', m.insert l r = .ok (o, m') ∧
      Shows m' ((l, r) :: c.filter fun p => !(l == p.1) && !(r == p.2)) := by
  obtain ⟨m', e, h', _⟩ := insert_refines (h.repr_of_shows hc) l r
  exact ⟨_, m', e, h'.shows⟩

/-- C08: `insert` hands back the displaced pairs: on the left the old pair of `l`, on the right the old
pair of `r` unless it is the same pair. -/
theorem C08_insert_returns (h : Reachable m) (hc : Shows m c) (l : L) (r : R) :
    ∃ o m', m.insert l r = .ok (o, m') ∧
      toPair o = (c.find? fun p => l == p.1, c.find? fun p => r == p.2 && !(l == p.1)) := by
  have h := h.repr_of_shows hc
  obtain ⟨m', e, h', _⟩ := insert_refines h l r
  refine ⟨_, m', e, ?_⟩
  rw [CycleSpec.insert, (OptionalPair.C01_pair_roundtrip).2, ← findR_eraseL h.oneToOne, findR, eraseL,
    List.find?_filter]
  congr 2; funext p
  cases l == p.1 <;> cases r == p.2 <;> rfl

example : ∃ o m', demo.insert 1 20 = .ok (o, m') ∧ toPair o = (some (1, 10), some (2, 20)) :=
  C08_insert_returns demo_reachable demo_shows 1 20
example : ∃ o m', demo.insert 2 20 = .ok (o, m') ∧ toPair o = (some (2, 20), none) :=
  C08_insert_returns demo_reachable demo_shows 2 20
example : ∃ o m', demo.insert 1 20 = .ok (o, m') ∧ Shows m' [(1, 20), (3, 30)] :=
  C07_insert_effect demo_reachable demo_shows 1 20

/-! ### C09, C10 -/

/-- C09: removing via one side returns and removes exactly the pair of the argument. -/
theorem C09_remove_via (h : Reachable m) (hc : Shows m c) :
    (∀ l, ∃ m', m.removeViaLeft l = .ok (c.find? (fun p => l == p.1), m') ∧
      Shows m' (c.filter fun p => !(l == p.1))) ∧
    (∀ r, ∃ m', m.removeViaRight r = .ok (c.find? (fun p => r == p.2), m') ∧
      Shows m' (c.filter fun p => !(r == p.2))) := by
  have h := h.repr_of_shows hc
  constructor
  · intro l
    obtain ⟨m', e, h', _⟩ := removeViaLeft_refines h l
    exact ⟨m', e, h'.shows⟩
  · intro r
    obtain ⟨m', e, h', _⟩ := removeViaRight_refines h r
    exact ⟨m', e, h'.shows⟩

example : ∃ m', demo.removeViaRight 20 = .ok (some (2, 20), m') ∧ Shows m' [(3, 30), (1, 10)] :=
  (C09_remove_via demo_reachable demo_shows).2 20

/-- C10: `remove(l, r)` acts exactly when `l` and `r` are partners. -/
theorem C10_remove (h : Reachable m) (hc : Shows m c) (l : L) (r : R) :
    ∃ m', m.remove l r = .ok (c.find? (fun p => l == p.1 && r == p.2), m') ∧
      Shows m' (c.filter fun p => !(l == p.1 && r == p.2)) := by
  have h := h.repr_of_shows hc
  obtain ⟨m', e, h', _⟩ := remove_refines h l r
  have key : (if hasPair c l r then findL c l else none) = c.find? (fun p => l == p.1 && r == p.2) ∧
      (if hasPair c l r then eraseL c l else c) = c.filter fun p => !(l == p.1 && r == p.2) := by
    by_cases hp : hasPair c l r = true
    · rw [if_pos hp, if_pos hp]
      rw [hasPair, List.any_eq_true] at hp
      obtain ⟨p, hp, hx⟩ := hp
      have hx' := (Bool.and_eq_true _ _ ▸ hx)
      constructor
      · rw [findL_of_mem h.oneToOne hp hx'.1]
        symm
        cases hf : c.find? (fun p => l == p.1 && r == p.2) with
        | none => exact absurd hx (by simpa using List.find?_eq_none.1 hf p hp)
        | some q =>
          have hq := List.find?_some hf
          rw [h.oneToOne.unique (List.mem_of_find?_eq_some hf) hp
            (.inl (BEq.trans (BEq.symm (Bool.and_eq_true _ _ ▸ hq).1) hx'.1))]
      · apply List.filter_congr
        intro q hq
        cases hl : l == q.1 with
        | false => rfl
        | true =>
          have := h.oneToOne.unique hp hq (.inl (BEq.trans (BEq.symm hx'.1) hl))
          subst this; simp [hx'.2]
    · rw [if_neg hp, if_neg hp]
      have hn : ∀ q ∈ c, (l == q.1 && r == q.2) = false := by
        simpa [hasPair] using hp
      constructor
      · symm; rw [List.find?_eq_none]; intro q hq; simp [hn q hq]
      · symm; rw [List.filter_eq_self]; intro q hq; simp [hn q hq]
  rw [key.1] at e; rw [key.2] at h'
  exact ⟨m', e, h'.shows⟩

example : ∃ m', demo.remove 1 20 = .ok (none, m') ∧ Shows m' [(3, 30), (2, 20), (1, 10)] :=
  C10_remove demo_reachable demo_shows 1 20
example : ∃ m', demo.remove 1 10 = .ok (some (1, 10), m') ∧ Shows m' [(3, 30), (2, 20)] :=
  C10_remove demo_reachable demo_shows 1 10

/-! ### C11 -/

/-- C11: the membership tests agree with the lookups, in every reachable map. -/
theorem C11_membership (h : Reachable m) :
    (∀ l, m.containsLeft l = (m.getRight l).isSome) ∧
    (∀ r, m.containsRight r = (m.getLeft r).isSome) ∧
    (∀ l r, m.arePaired l r = true ↔ ∃ r', m.getRight l = some r' ∧ (r == r') = true) ∧
    (∀ l r, m.arePaired l r = true ↔ ∃ l', m.getLeft r = some l' ∧ (l == l') = true) ∧
    (∀ l, m.containsLeft l = true ↔ ∃ l' ∈ m.iterLeft, (l == l') = true) ∧
    (∀ r, m.containsRight r = true ↔ ∃ r' ∈ m.iterRight, (r == r') = true) := by
  obtain ⟨c, hc⟩ := h.repr
  have s := hc.shows
  refine ⟨?_, ?_, ?_, ?_, ?_, ?_⟩
  · intro l; rw [s.containsLeft, s.getRight, Option.isSome_map, findL_isSome_eq]
  · intro r; rw [s.containsRight, s.getLeft, Option.isSome_map, findR_isSome_eq]
  · intro l r
    rw [s.arePaired, s.getRight, hasPair_eq s.oneToOne]
    cases findL c l <;> simp
  · intro l r
    rw [s.arePaired, s.getLeft, hasPair_eq' s.oneToOne]
    cases findR c r <;> simp
  · intro l
    rw [s.containsLeft, List.any_eq_true]
    simp only [s.iterLeft.mem_iff, List.mem_map]
    constructor
    · rintro ⟨p, hp, e⟩; exact ⟨_, ⟨p, hp, rfl⟩, e⟩
    · rintro ⟨_, ⟨p, hp, rfl⟩, e⟩; exact ⟨p, hp, e⟩
  · intro r
    rw [s.containsRight, List.any_eq_true]
    simp only [s.iterRight.mem_iff, List.mem_map]
    constructor
    · rintro ⟨p, hp, e⟩; exact ⟨_, ⟨p, hp, rfl⟩, e⟩
    · rintro ⟨_, ⟨p, hp, rfl⟩, e⟩; exact ⟨p, hp, e⟩

example : demo.arePaired 3 30 = true ∧ ∃ r', demo.getRight 3 = some r' ∧ (30 == r') = true :=
  have e : demo.arePaired 3 30 = true := by rw [demo_shows.arePaired]; rfl
  ⟨e, ((C11_membership demo_reachable).2.2.1 3 30).1 e⟩

/-! ### C12–C15: swaps -/

/-- C12: `swap_left(old, new)` with `(a, b)` the pair of `old`: it becomes `(new, b)`, another pair of
`new` goes; returned are `a` and that other pair. -/
theorem C12_swap_left_present (h : Reachable m) (hc : Shows m c) (old new : L) (a : L) (b : R)
    (hp : (a, b) ∈ c) (ho : (old == a) = true) :
    ∃ o m', m.swapLeft old new = .ok (o, m') ∧
      toPair o = (some a, c.find? fun p => new == p.1 && !(old == p.1)) ∧
      Shows m' ((new, b) :: c.filter fun p => !(old == p.1) && !(new == p.1)) := by
  have h := h.repr_of_shows hc
  obtain ⟨m', e, h', _⟩ := swapLeft_refines h old new
  have hf : findL c old = some (a, b) := findL_of_mem h.oneToOne hp ho
  refine ⟨_, m', e, ?_, ?_⟩
  · simp only [CycleSpec.swapLeft, hf, (OptionalPair.C01_pair_roundtrip).2]
    congr 1
    cases hn : new == old with
    | true =>
      symm; rw [if_pos rfl, List.find?_eq_none]
      intro p _
      rw [BEq.congr_left hn]; simp
    | false =>
      simp only [Bool.false_eq_true, if_false, findL]
      congr 1; funext p
      cases h1 : new == p.1 with
      | false => rfl
      | true =>
        cases h2 : old == p.1 with
        | false => rfl
        | true => rw [BEq.trans h1 (BEq.symm h2)] at hn; cases hn
  · simpa only [CycleSpec.swapLeft, hf] using h'.shows

example : ∃ o m', demo.swapLeft 1 3 = .ok (o, m') ∧ toPair o = (some 1, some (3, 30)) ∧
    Shows m' [(3, 10), (2, 20)] :=
  C12_swap_left_present demo_reachable demo_shows 1 3 1 10 (by decide) rfl

/-- C14: the mirror image of C12. -/
theorem C14_swap_right_present (h : Reachable m) (hc : Shows m c) (old new : R) (a : L) (b : R)
    (hp : (a, b) ∈ c) (ho : (old == b) = true) :
    ∃ o m', m.swapRight old new = .ok (o, m') ∧
      toPair o = (some b, c.find? fun p => new == p.2 && !(old == p.2)) ∧
      Shows m' ((a, new) :: c.filter fun p => !(old == p.2) && !(new == p.2)) := by
  have h := h.repr_of_shows hc
  obtain ⟨m', e, h', _⟩ := swapRight_refines h old new
  have hf : findR c old = some (a, b) := findR_of_mem h.oneToOne hp ho
  refine ⟨_, m', e, ?_, ?_⟩
  · simp only [CycleSpec.swapRight, hf, (OptionalPair.C01_pair_roundtrip).2]
    congr 1
    cases hn : new == old with
    | true =>
      symm; rw [if_pos rfl, List.find?_eq_none]
      intro p _
      rw [BEq.congr_left hn]; simp
    | false =>
      simp only [Bool.false_eq_true, if_false, findR]
      congr 1; funext p
      cases h1 : new == p.2 with
      | false => rfl
      | true =>
        cases h2 : old == p.2 with
        | false => rfl
        | true => rw [BEq.trans h1 (BEq.symm h2)] at hn; cases hn
  · simpa only [CycleSpec.swapRight, hf] using h'.shows

example : ∃ o m', demo.swapRight 10 20 = .ok (o, m') ∧ toPair o = (some 10, some (2, 20)) ∧
    Shows m' [(1, 20), (3, 30)] :=
  C14_swap_right_present demo_reachable demo_shows 10 20 1 10 (by decide) rfl

/-- C13 as documented ("returns `Neither` and the map is unchanged").  False, see `C13_false`. -/
def C13_full : Prop :=
  ∀ [RawImpl] [LawfulRaw] (L R : Type) [BEq L] [BEq R] [EquivBEq L] [EquivBEq R] (m : CycleMap L R)
    (c : List (L × R)) (old new : L), Reachable m → Shows m c → (∀ p ∈ c, (old == p.1) = false) →
    ∃ m', m.swapLeft old new = .ok (neither, m') ∧ Shows m' c

/-- what happens instead: a pair of `new` is removed, and not returned -/
theorem C13_actual (h : Reachable m) (hc : Shows m c) (old new : L) (ho : ∀ p ∈ c, (old == p.1) = false) :
    ∃ m', m.swapLeft old new = .ok (neither, m') ∧ Shows m' (c.filter fun p => !(new == p.1)) := by
  obtain ⟨m', e, h', _⟩ := swapLeft_refines (h.repr_of_shows hc) old new
  simp only [CycleSpec.swapLeft, findL_none ho] at e h'
  exact ⟨m', e, h'.shows⟩

/-- C13 holds when `new` is absent, too.  Missing: the case where `new` is present. -/
theorem C13_partial (h : Reachable m) (hc : Shows m c) (old new : L) (ho : ∀ p ∈ c, (old == p.1) = false)
    (hn : ∀ p ∈ c, (new == p.1) = false) :
    ∃ m', m.swapLeft old new = .ok (neither, m') ∧ Shows m' c := by
  obtain ⟨m', e, h'⟩ := C13_actual h hc old new ho
  rw [List.filter_eq_self.2 (by simpa using hn)] at h'
  exact ⟨m', e, h'⟩

example : ∃ m', demo.swapLeft 7 8 = .ok (neither, m') ∧ Shows m' [(3, 30), (2, 20), (1, 10)] :=
  C13_partial demo_reachable demo_shows 7 8 (by decide) (by decide)

omit [RawImpl] [LawfulRaw] in
/-- the witness: `swap_left(7, 2)` on `{1: 10, 2: 20, 3: 30}` loses `(2, 20)` -/
theorem C13_false : ¬ C13_full := by
  intro h
  letI := messyRaw; haveI := messyRaw_lawful
  obtain ⟨m', e, s⟩ := h Nat Nat demo _ 7 2 demo_reachable demo_shows (by decide)
  obtain ⟨m'', e', s'⟩ := C13_actual demo_reachable demo_shows 7 2 (by decide)
  rw [e] at e'; cases e'
  have := s.len.symm.trans s'.len
  revert this; decide

/-- C15 as documented.  False, see `C15_false`. -/
def C15_full : Prop :=
  ∀ [RawImpl] [LawfulRaw] (L R : Type) [BEq L] [BEq R] [EquivBEq L] [EquivBEq R] (m : CycleMap L R)
    (c : List (L × R)) (old new : R), Reachable m → Shows m c → (∀ p ∈ c, (old == p.2) = false) →
    ∃ m', m.swapRight old new = .ok (neither, m') ∧ Shows m' c

/-- what happens instead: a pair of `new` is removed, and not returned -/
theorem C15_actual (h : Reachable m) (hc : Shows m c) (old new : R) (ho : ∀ p ∈ c, (old == p.2) = false) :
    ∃ m', m.swapRight old new = .ok (neither, m') ∧ Shows m' (c.filter fun p => !(new == p.2)) := by
  obtain ⟨m', e, h', _⟩ := swapRight_refines (h.repr_of_shows hc) old new
  simp only [CycleSpec.swapRight, findR_none ho] at e h'
  exact ⟨m', e, h'.shows⟩

/-- C15 holds when `new` is absent, too.  Missing: the case where `new` is present. -/
theorem C15_partial (h : Reachable m) (hc : Shows m c) (old new : R) (ho : ∀ p ∈ c, (old == p.2) = false)
    (hn : ∀ p ∈ c, (new == p.2) = false) :
    ∃ m', m.swapRight old new = .ok (neither, m') ∧ Shows m' c := by
  obtain ⟨m', e, h'⟩ := C15_actual h hc old new ho
  rw [List.filter_eq_self.2 (by simpa using hn)] at h'
  exact ⟨m', e, h'⟩

example : ∃ m', demo.swapRight 70 80 = .ok (neither, m') ∧ Shows m' [(3, 30), (2, 20), (1, 10)] :=
  C15_partial demo_reachable demo_shows 70 80 (by decide) (by decide)

omit [RawImpl] [LawfulRaw] in
/-- the witness: `swap_right(70, 20)` on `{1: 10, 2: 20, 3: 30}` loses `(2, 20)` -/
theorem C15_false : ¬ C15_full := by
  intro h
  letI := messyRaw; haveI := messyRaw_lawful
  obtain ⟨m', e, s⟩ := h Nat Nat demo _ 70 20 demo_reachable demo_shows (by decide)
  obtain ⟨m'', e', s'⟩ := C15_actual demo_reachable demo_shows 70 20 (by decide)
  rw [e] at e'; cases e'
  have := s.len.symm.trans s'.len
  revert this; decide

/-! ### C16 -/

/-- C16: the checked swaps are the unchecked ones when the old item is paired with the expected one, and
do nothing otherwise. -/
theorem C16_checked_swaps (hc : Shows m c) :
    (∀ old expected new, (∃ p ∈ c, (old == p.1) = true ∧ (expected == p.2) = true) →
      m.swapLeftChecked old expected new = m.swapLeft old new) ∧
    (∀ old expected new, (¬ ∃ p ∈ c, (old == p.1) = true ∧ (expected == p.2) = true) →
      m.swapLeftChecked old expected new = .ok (neither, m)) ∧
    (∀ old expected new, (∃ p ∈ c, (expected == p.1) = true ∧ (old == p.2) = true) →
      m.swapRightChecked old expected new = m.swapRight old new) ∧
    (∀ old expected new, (¬ ∃ p ∈ c, (expected == p.1) = true ∧ (old == p.2) = true) →
      m.swapRightChecked old expected new = .ok (neither, m)) := by
  have key : ∀ l r, m.arePaired l r = true ↔ ∃ p ∈ c, (l == p.1) = true ∧ (r == p.2) = true := by
    intro l r; rw [hc.arePaired, hasPair, List.any_eq_true]; simp
  refine ⟨?_, ?_, ?_, ?_⟩ <;> intro old x new hp <;> rw [← key] at hp <;>
    simp [swapLeftChecked, swapRightChecked, hp]

example : demo.swapLeftChecked 1 10 3 = demo.swapLeft 1 3 ∧ demo.swapRightChecked 10 2 30 = .ok (neither, demo) :=
  ⟨(C16_checked_swaps demo_shows).1 1 10 3 (by decide),
   (C16_checked_swaps demo_shows).2.2.2 10 2 30 (by decide)⟩

/-! ### C17 -/

/-- C17 in full: with `old` absent `(new, r)` is inserted and what it displaced is handed back; in particular a single
displaced pair is handed back whole (the return type `OptionalPair<L, (L, R)>` has a place for it).
False, see `C17_false`. -/
def C17_full : Prop :=
  ∀ [RawImpl] [LawfulRaw] (L R : Type) [BEq L] [BEq R] [EquivBEq L] [EquivBEq R] (m : CycleMap L R)
    (c : List (L × R)) (old new : L) (r : R), Reachable m → Shows m c →
    ((∃ p ∈ c, (old == p.1) = true) → m.swapLeftOrInsert old new r = m.swapLeft old new) ∧
    ((∀ p ∈ c, (old == p.1) = false) → ∃ o m', m.swapLeftOrInsert old new r = .ok (o, m') ∧
      Shows m' ((new, r) :: c.filter fun p => !(new == p.1) && !(r == p.2)) ∧
      ∀ p ∈ c, (∀ q ∈ c, ((new == q.1) = true ∨ (r == q.2) = true) ↔ q = p) → (toPair o).2 = some p)

/-- C17, what holds: with `old` present it is `swap_left`; with `old` absent it inserts, returning the
left item of the pair displaced through `new` and the whole pair displaced through `r`.
Missing: the right item of the pair displaced through `new`. -/
theorem C17_partial (h : Reachable m) (hc : Shows m c) (old new : L) (r : R) :
    ((∃ p ∈ c, (old == p.1) = true) → m.swapLeftOrInsert old new r = m.swapLeft old new) ∧
    ((∀ p ∈ c, (old == p.1) = false) → ∃ o m', m.swapLeftOrInsert old new r = .ok (o, m') ∧
      toPair o = ((c.find? fun p => new == p.1).map (·.1), c.find? fun p => r == p.2 && !(new == p.1)) ∧
      Shows m' ((new, r) :: c.filter fun p => !(new == p.1) && !(r == p.2))) := by
  have hr := h.repr_of_shows hc
  constructor
  · rintro ⟨p, hp, ho⟩
    rw [swapLeftOrInsert, findL_isSome hr, findL_of_mem hc.oneToOne hp ho]; rfl
  · intro ho
    obtain ⟨o, m', e, ht⟩ := C08_insert_returns h hc new r
    obtain ⟨o', m'', e', hs⟩ := C07_insert_effect h hc new r
    rw [e] at e'; cases e'
    refine ⟨o.mapLeft (·.1), m', ?_, ?_, hs⟩
    · rw [swapLeftOrInsert, findL_isSome hr, findL_none ho]
      simp [e, bind, Except.bind, pure, Except.pure]
    · rw [(OptionalPair.C04_mapping o (fun p : L × R => p.1) id id id).2.1, ht]

example : ∃ o m', demo.swapLeftOrInsert 7 2 10 = .ok (o, m') ∧ toPair o = (some 2, some (1, 10)) ∧
    Shows m' [(2, 10), (3, 30)] :=
  (C17_partial demo_reachable demo_shows 7 2 10).2 (by decide)

omit [RawImpl] [LawfulRaw] in
/-- the witness: `swap_left_or_insert(7, 2, 99)` displaces `(2, 20)` and returns only `2` -/
theorem C17_false : ¬ C17_full := by
  intro h
  letI := messyRaw; haveI := messyRaw_lawful
  obtain ⟨o, m', e, _, s⟩ := (h Nat Nat demo _ 7 2 99 demo_reachable demo_shows).2 (by decide)
  obtain ⟨o', m'', e', t, _⟩ := (C17_partial demo_reachable demo_shows 7 2 99).2 (by decide)
  rw [e] at e'; cases e'
  have := s (2, 20) (by decide) (by decide)
  rw [t] at this
  revert this; decide

/-! ### C18 -/

/-- C18 in full: no panic.  False, see `C18_false`. -/
def C18_full : Prop :=
  ∀ [RawImpl] [LawfulRaw] (L R : Type) [BEq L] [BEq R] [EquivBEq L] [EquivBEq R] (m : CycleMap L R)
    (c : List (L × R)) (old new : R) (l : L), Reachable m → Shows m c →
    ((∃ p ∈ c, (old == p.2) = true) → m.swapRightOrInsert old new l = m.swapRight old new) ∧
    ((∀ p ∈ c, (old == p.2) = false) → ∃ o m', m.swapRightOrInsert old new l = .ok (o, m') ∧
      Shows m' ((l, new) :: c.filter fun p => !(l == p.1) && !(new == p.2)) ∧
      ∀ p ∈ c, (∀ q ∈ c, ((l == q.1) = true ∨ (new == q.2) = true) ↔ q = p) → (toPair o).2 = some p)

/-- C18, what holds: with `old` present it is `swap_right`; with `old` and `l` absent it inserts and hands
back the displaced pair.  Missing: `l` present (then it panics, `C18_panics`). -/
theorem C18_partial (h : Reachable m) (hc : Shows m c) (old new : R) (l : L) :
    ((∃ p ∈ c, (old == p.2) = true) → m.swapRightOrInsert old new l = m.swapRight old new) ∧
    ((∀ p ∈ c, (old == p.2) = false) → (∀ p ∈ c, (l == p.1) = false) →
      ∃ o m', m.swapRightOrInsert old new l = .ok (o, m') ∧
        toPair o = (none, c.find? fun p => new == p.2) ∧
        Shows m' ((l, new) :: c.filter fun p => !(new == p.2))) := by
  have hr := h.repr_of_shows hc
  constructor
  · rintro ⟨p, hp, ho⟩
    rw [swapRightOrInsert, findR_isSome hr, findR_of_mem hc.oneToOne hp ho]; rfl
  · intro ho hl
    obtain ⟨m', e, h', _⟩ := swapRightOrInsert_refines hr old new l (.inr (findL_none hl))
    rw [findR_none ho] at e h'
    refine ⟨_, m', e, ?_, ?_⟩
    · simp [(OptionalPair.C01_pair_roundtrip).2, findR]
    · have e2 : (CycleSpec.insert c l new).2 = (l, new) :: c.filter fun p => !(new == p.2) := by
        simp only [CycleSpec.insert]
        congr 1
        apply List.filter_congr
        intro p hp; simp [hl p hp]
      simp only [Option.isSome_none, Bool.false_eq_true, if_false, e2] at h'
      exact h'.shows

/-- C18: exactly when it panics. -/
theorem C18_panics (h : Reachable m) (hc : Shows m c) (old new : R) (l : L) :
    (∃ e, m.swapRightOrInsert old new l = .error e) ↔
      (∀ p ∈ c, (old == p.2) = false) ∧ ∃ p ∈ c, (l == p.1) = true := by
  have hr := h.repr_of_shows hc
  constructor
  · rintro ⟨e, he⟩
    have hs : ¬ ((findR c old).isSome ∨ findL c l = none) := by
      intro hs
      obtain ⟨m', e', _⟩ := swapRightOrInsert_refines hr old new l hs
      rw [he] at e'; cases e'
    rw [not_or, findR_isSome_eq] at hs
    constructor
    · simpa using hs.1
    · cases hf : findL c l with
      | none => exact absurd hf hs.2
      | some p => exact ⟨p, findL_mem hf⟩
  · rintro ⟨ho, p, hp, hl⟩
    refine ⟨.unreachable, swapRightOrInsert_panics hr old new l ?_⟩
    rw [findR_none ho, findL_of_mem hc.oneToOne hp hl]; simp

example : ∃ o m', demo.swapRightOrInsert 70 20 9 = .ok (o, m') ∧ toPair o = (none, some (2, 20)) ∧
    Shows m' [(9, 20), (3, 30), (1, 10)] :=
  (C18_partial demo_reachable demo_shows 70 20 9).2 (by decide) (by decide)

omit [RawImpl] [LawfulRaw] in
/-- the witness: `swap_right_or_insert(70, 80, 1)` on a map containing `1` -/
theorem C18_false : ¬ C18_full := by
  intro h
  letI := messyRaw; haveI := messyRaw_lawful
  obtain ⟨o, m', e, _⟩ := (h Nat Nat demo _ 70 80 1 demo_reachable demo_shows).2 (by decide)
  obtain ⟨x, e'⟩ := (C18_panics demo_reachable demo_shows 70 80 1).2 ⟨by decide, by decide⟩
  rw [e] at e'; cases e'

end Verif.CycleMap
