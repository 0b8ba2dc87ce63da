import Verif.Props.PartialDemo
import Verif.Props.Optionals
/-! Properties C34–C45 of `PartialCycleMap`. -/
set_option linter.unusedSectionVars false
set_option linter.unusedSimpArgs false
namespace Verif.PartialMap
open PartialSpec OptionalPair Demo

variable [RawImpl] [LawfulRaw] {L R : Type} [BEq L] [BEq R] [EquivBEq L] [EquivBEq R]
variable {m : PartialMap L R} {c : List (OptionalPair L R)}

/-! ### C34 -/

/-- C34: for every history of (safe) calls on a new map, whatever the hash builder and the table
implementation, no call panics, the results are those of a list of entries, and at the end every observer
describes the map as that list, in which no two entries share an item. -/
theorem C34_history (hb : BuildHasher L R) (ops : List (Op L R)) (hs : SafeRun hb [] ops) :
    ∃ os m' c', (withHasher hb).run ops = .ok (os, m') ∧ Steps [] ops os c' ∧ Shows m' c' := by
  obtain ⟨os, m', c', e, s, h, _⟩ := run_simulates rfl (withHasher_repr hb) hs
  exact ⟨os, m', c', e, s, h.shows⟩

/-- C34 for `with_capacity`. -/
theorem C34_history_with_capacity (n : Nat) (hb : BuildHasher L R) (ops : List (Op L R)) (hs : SafeRun hb [] ops) :
    ∃ os m' c', (withCapacityAndHasher n hb).run ops = .ok (os, m') ∧ Steps [] ops os c' ∧ Shows m' c' := by
  obtain ⟨os, m', c', e, s, h, _⟩ := run_simulates rfl (withCapacity_repr n hb) hs
  exact ⟨os, m', c', e, s, h.shows⟩

/-- C34, starting from any reachable map. -/
theorem C34_history_from (h : Reachable m) (hc : Shows m c) (ops : List (Op L R)) (hs : SafeRun m.hb c ops) :
    ∃ os m' c', m.run ops = .ok (os, m') ∧ Steps c ops os c' ∧ Shows m' c' := by
  obtain ⟨os, m', c', e, s, h, _⟩ := run_simulates rfl (h.repr_of_shows hc) hs
  exact ⟨os, m', c', e, s, h.shows⟩

/-- C34: every reachable map is a list of entries to all observers. -/
theorem C34_reachable_shows (h : Reachable m) : ∃ c, Shows m c := by
  obtain ⟨c, hc⟩ := h.repr
  exact ⟨c, hc.shows⟩

/-- a history with conflicts, lone items, forced pairing, stateful closures and early drops -/
example : SafeRun constHash ([] : List (OptionalPair Nat Nat))
    [.insert 1 10, .insertLeft 2, .insertRight 20, .pair 2 20, .pairForced 1 20, .removeLeft 1, .swapRight 20 30,
     .extend [someBoth 4 40, neither, someLeft 5], .retain Nat (fun s _ => (s % 2 == 0, s + 1)) 0,
     .drainFilter Nat (fun s e => (isPair e && s % 2 == 0, s + 1)) 0 1, .drain 1, .clear] := by
  simp [SafeRun, Safe, isPair]

example : ∃ os m' c', demo.run [.pairForced 1 20, .iterUnpaired] = .ok (os, m') ∧
    Steps [someRight 30, someLeft 3, someBoth 2 20, someBoth 1 10] [.pairForced 1 20, .iterUnpaired] os c' ∧
    Shows m' c' :=
  C34_history_from demo_reachable demo_shows _ (by simp [SafeRun, Safe])

/-! ### C35 -/

theorem Shows.findL_mem (_ : Shows m c) {l : L} {e} (h : findL c l = some e) : e ∈ c ∧ hasL l e = true :=
  ⟨List.mem_of_find?_eq_some h, List.find?_some h⟩

theorem Shows.findR_mem (_ : Shows m c) {r : R} {e} (h : findR c r = some e) : e ∈ c ∧ hasR r e = true :=
  ⟨List.mem_of_find?_eq_some h, List.find?_some h⟩

/-- C35: in every reachable map the two lookups are inverse to each other; an item is reported paired
exactly if it has a partner, and exactly if `are_paired` holds of it and some item; partners are unique;
every item belongs to the map on its side. -/
theorem C35_symmetric (h : Reachable m) :
    (∀ l r, m.getRight l = some r → ∃ l', m.getLeft r = some l' ∧ (l == l') = true) ∧
    (∀ r l, m.getLeft r = some l → ∃ r', m.getRight l = some r' ∧ (r == r') = true) ∧
    (∀ l, m.isLeftPaired l = (m.getRight l).isSome) ∧
    (∀ r, m.isRightPaired r = (m.getLeft r).isSome) ∧
    (∀ l r, m.arePaired l r = true ↔ ∃ r', m.getRight l = some r' ∧ (r == r') = true) ∧
    (∀ l r, m.arePaired l r = true ↔ ∃ l', m.getLeft r = some l' ∧ (l == l') = true) ∧
    (∀ l r r', m.arePaired l r = true → m.arePaired l r' = true → (r == r') = true) ∧
    (∀ l l' r, m.arePaired l r = true → m.arePaired l' r = true → (l == l') = true) ∧
    (∀ l r, m.arePaired l r = true → m.containsLeft l = true ∧ m.containsRight r = true) := by
  obtain ⟨c, hc⟩ := h.repr
  have s := hc.shows
  have pr : ∀ l r, m.arePaired l r = true ↔ ∃ r', m.getRight l = some r' ∧ (r == r') = true := by
    intro l r
    rw [s.arePaired, s.getRight, hasPair_eq s.oneToOne]
    cases findL c l with
    | none => simp
    | some e => cases e <;> simp [rightOf, hasR]
  have pl : ∀ l r, m.arePaired l r = true ↔ ∃ l', m.getLeft r = some l' ∧ (l == l') = true := by
    intro l r
    rw [s.arePaired, s.getLeft, hasPair_eq' s.oneToOne]
    cases findR c r with
    | none => simp
    | some e => cases e <;> simp [leftOf, hasL]
  refine ⟨?_, ?_, ?_, ?_, pr, pl, ?_, ?_, ?_⟩
  · intro l r e
    exact (pl l r).1 ((pr l r).2 ⟨r, e, BEq.rfl⟩)
  · intro r l e
    exact (pr l r).1 ((pl l r).2 ⟨l, e, BEq.rfl⟩)
  · intro l
    rw [s.isLeftPaired, s.getRight]
    cases hf : findL c l with
    | none =>
      rw [findL, List.find?_eq_none] at hf
      simp only [Option.bind_none, Option.isSome_none, List.any_eq_false, Bool.and_eq_true, not_and]
      exact fun e he _ => hf e he
    | some e =>
      have ⟨hm, hl⟩ := s.findL_mem hf
      obtain ⟨d, hd⟩ := perm_cons_of_mem hm
      rw [any_pair_L hd hl fun q hq => hasL_false_of hl ((List.pairwise_cons.1 (s.oneToOne.perm' hd).1).1 q hq)]
      cases e <;> simp_all [isPair, rightOf, hasL]
  · intro r
    rw [s.isRightPaired, s.getLeft]
    cases hf : findR c r with
    | none =>
      rw [findR, List.find?_eq_none] at hf
      simp only [Option.bind_none, Option.isSome_none, List.any_eq_false, Bool.and_eq_true, not_and]
      exact fun e he _ => hf e he
    | some e =>
      have ⟨hm, hl⟩ := s.findR_mem hf
      obtain ⟨d, hd⟩ := perm_cons_of_mem hm
      rw [any_pair_R hd hl fun q hq => hasR_false_of hl ((List.pairwise_cons.1 (s.oneToOne.perm' hd).1).1 q hq)]
      cases e <;> simp_all [isPair, leftOf, hasR]
  · intro l r r' e e'
    obtain ⟨x, hx, h1⟩ := (pr l r).1 e
    obtain ⟨y, hy, h2⟩ := (pr l r').1 e'
    rw [hx] at hy; cases hy
    exact BEq.trans h1 (BEq.symm h2)
  · intro l l' r e e'
    obtain ⟨x, hx, h1⟩ := (pl l r).1 e
    obtain ⟨y, hy, h2⟩ := (pl l' r).1 e'
    rw [hx] at hy; cases hy
    exact BEq.trans h1 (BEq.symm h2)
  · intro l r e
    rw [s.arePaired, hasPair, List.any_eq_true] at e
    obtain ⟨x, hx, h⟩ := e
    rw [Bool.and_eq_true] at h
    rw [s.containsLeft, s.containsRight, List.any_eq_true, List.any_eq_true]
    exact ⟨⟨x, hx, h.1⟩, ⟨x, hx, h.2⟩⟩

example : demo.getRight 2 = some 20 ∧ demo.isLeftPaired 3 = false ∧ ∃ l', demo.getLeft 20 = some l' ∧ (2 == l') = true :=
  have e : demo.getRight 2 = some 20 := by rw [demo_shows.getRight]; rfl
  ⟨e, by rw [demo_shows.isLeftPaired]; rfl, (C35_symmetric demo_reachable).1 2 20 e⟩

/-! ### C36, C37: insertion -/

/-- C36: after `insert(l, r)` the entries are the pair `(l, r)` and the old entries sharing no item with
it; returned are the old entry of `l` and the old entry of `r`, the latter only if it is another one. -/
theorem C36_insert (h : Reachable m) (hc : Shows m c) (l : L) (r : R) :
    ∃ m', m.insert l r = .ok (((c.find? fun e => hasL l e).getD neither,
          (c.find? fun e => hasR r e && !hasL l e).getD neither), m') ∧
      Shows m' (someBoth l r :: c.filter fun e => !hasL l e && !hasR r e) := by
  have h := h.repr_of_shows hc
  obtain ⟨m', e, h', _⟩ := insert_refines h l r
  refine ⟨m', ?_, h'.shows⟩
  rw [e]
  congr 3
  have := findR_eraseL h.oneToOne l r
  rw [findR, eraseL, List.find?_filter] at this
  have e : (fun e => hasR r e && !hasL l e) = fun e : OptionalPair L R => !hasL l e && hasR r e := by
    funext e; rw [Bool.and_comm]
  have e2 : (fun a : OptionalPair L R => decide ((!hasL l a) = true ∧ hasR r a = true)) = fun e => !hasL l e && hasR r e := by
    funext a; cases hasL l a <;> cases hasR r a <;> rfl
  rw [e2] at this
  rw [e, this]
  rw [PartialSpec.insert]; cases hasPair c l r <;> rfl

example : ∃ m', demo.insert 1 20 = .ok ((someBoth 1 10, someBoth 2 20), m') ∧
    Shows m' [someBoth 1 20, someRight 30, someLeft 3] := C36_insert demo_reachable demo_shows 1 20
example : ∃ m', demo.insert 3 30 = .ok ((someLeft 3, someRight 30), m') ∧
    Shows m' [someBoth 3 30, someBoth 2 20, someBoth 1 10] := C36_insert demo_reachable demo_shows 3 30
example : ∃ m', demo.insert 2 20 = .ok ((someBoth 2 20, neither), m') ∧
    Shows m' [someBoth 2 20, someRight 30, someLeft 3, someBoth 1 10] := C36_insert demo_reachable demo_shows 2 20

/-- C37: a lone insertion leaves the item alone and every entry without an equal item, and returns the
displaced entry. -/
theorem C37_insert_lone (h : Reachable m) (hc : Shows m c) :
    (∀ l, ∃ m', m.insertLeft l = .ok ((c.find? fun e => hasL l e).getD neither, m') ∧
      Shows m' (someLeft l :: c.filter fun e => !hasL l e)) ∧
    (∀ r, ∃ m', m.insertRight r = .ok ((c.find? fun e => hasR r e).getD neither, m') ∧
      Shows m' (someRight r :: c.filter fun e => !hasR r e)) := by
  have h := h.repr_of_shows hc
  constructor
  · intro l
    obtain ⟨m', e, h', _⟩ := insertLeft_refines h l
    exact ⟨m', e, h'.shows⟩
  · intro r
    obtain ⟨m', e, h', _⟩ := insertRight_refines h r
    exact ⟨m', e, h'.shows⟩

example : ∃ m', demo.insertLeft 1 = .ok (someBoth 1 10, m') ∧
    Shows m' [someLeft 1, someRight 30, someLeft 3, someBoth 2 20] := (C37_insert_lone demo_reachable demo_shows).1 1
example : ∃ m', demo.insertRight 40 = .ok (neither, m') ∧
    Shows m' [someRight 40, someRight 30, someLeft 3, someBoth 2 20, someBoth 1 10] :=
  (C37_insert_lone demo_reachable demo_shows).2 40

/-! ### C38–C41: pairing -/

/-- C38: `pair(l, r)` joins the stored items exactly when both are there and both are alone. -/
theorem C38_pair (h : Reachable m) (hc : Shows m c) (l : L) (r : R) :
    (∀ a b, someLeft a ∈ c → someRight b ∈ c → (l == a) = true → (r == b) = true →
      ∃ m', m.pair l r = (true, m') ∧ Shows m' (someBoth a b :: c.filter fun e => !hasL l e && !hasR r e)) ∧
    ((¬ ∃ a b, someLeft a ∈ c ∧ someRight b ∈ c ∧ (l == a) = true ∧ (r == b) = true) →
      ∃ m', m.pair l r = (false, m') ∧ Shows m' c) := by
  have h := h.repr_of_shows hc
  obtain ⟨m', e, h', _⟩ := pair_refines h l r
  constructor
  · intro a b ha hb hl hr
    have fl := mem_findL h.oneToOne ha (l := l) hl
    have fr := mem_findR h.oneToOne hb (r := r) hr
    simp only [PartialSpec.pair, fl, fr] at e h'
    exact ⟨m', e, h'.shows⟩
  · intro hn
    have : PartialSpec.pair c l r = (false, c) := by
      unfold PartialSpec.pair
      split
      · rename_i a b fl fr
        exact absurd ⟨a, b, (hc.findL_mem fl).1, (hc.findR_mem fr).1, (hc.findL_mem fl).2, (hc.findR_mem fr).2⟩ hn
      · rfl
    rw [this] at e h'
    exact ⟨m', e, h'.shows⟩

example : ∃ m', demo.pair 3 30 = (true, m') ∧ Shows m' [someBoth 3 30, someBoth 2 20, someBoth 1 10] :=
  (C38_pair demo_reachable demo_shows 3 30).1 3 30 (by simp) (by simp) rfl rfl
example : ∃ m', demo.pair 1 30 = (false, m') ∧ Shows m' [someRight 30, someLeft 3, someBoth 2 20, someBoth 1 10] :=
  (C38_pair demo_reachable demo_shows 1 30).2 (by simp)

theorem forced_facts (hc : Shows m c) {l : L} {r : R} {x y : OptionalPair L R} (hx : x ∈ c) (hy : y ∈ c)
    (hl : hasL l x = true) (hr : hasR r y = true) :
    findL c l = some x ∧ findR c r = some y ∧ hasPair c l r = hasR r x := by
  have fl := mem_findL hc.oneToOne hx hl
  exact ⟨fl, mem_findR hc.oneToOne hy hr, by rw [hasPair_eq hc.oneToOne, fl]; rfl⟩

theorem absent_find {c : List (OptionalPair L R)} {l : L} {r : R} (h : (∀ e ∈ c, hasL l e = false) ∨ ∀ e ∈ c, hasR r e = false) :
    findL c l = none ∨ findR c r = none := by
  rcases h with h | h
  · exact .inl (by simpa [findL] using h)
  · exact .inr (by simpa [findR] using h)

/-- C39: `pair_forced(l, r)`, where `x` is the entry of `l` and `y` the entry of `r`.  If these are one and
the same, or one of the items is absent, nothing happens.  Otherwise the stored items become partners; the
former partners are returned and stay as lone items; the other entries stay. -/
theorem C39_pair_forced (h : Reachable m) (hc : Shows m c) (l : L) (r : R) :
    (∀ x y a b, x ∈ c → y ∈ c → hasL l x = true → hasR r y = true → leftOf x = some a → rightOf y = some b →
      hasR r x = false → ∃ o m', m.pairForced l r = .ok (o, m') ∧ toPair o = (leftOf y, rightOf x) ∧
        Shows m' (someBoth a b :: ((leftOf y).toList.map someLeft ++ (rightOf x).toList.map someRight ++
          c.filter fun e => !hasL l e && !hasR r e))) ∧
    (∀ x ∈ c, hasL l x = true → hasR r x = true → ∃ m', m.pairForced l r = .ok (neither, m') ∧ Shows m' c) ∧
    ((∀ e ∈ c, hasL l e = false) ∨ (∀ e ∈ c, hasR r e = false) →
      ∃ m', m.pairForced l r = .ok (neither, m') ∧ Shows m' c) := by
  have h := h.repr_of_shows hc
  obtain ⟨m', e, h', _⟩ := pairForced_refines h l r
  refine ⟨?_, ?_, ?_⟩
  · intro x y a b hx hy hl hr ha hb hn
    obtain ⟨fl, fr, hp⟩ := forced_facts hc hx hy hl hr
    simp only [PartialSpec.pairForced, fl, fr, Option.bind_some, ha, hb, hp, hn, Bool.false_eq_true, if_false] at e h'
    refine ⟨_, m', e, (OptionalPair.C01_pair_roundtrip).2 _, ?_⟩
    have : lones (leftOf y) (rightOf x) = (leftOf y).toList.map someLeft ++ (rightOf x).toList.map someRight := by
      cases leftOf y <;> cases rightOf x <;> rfl
    rw [← this]; exact h'.shows
  · intro x hx hl hr
    obtain ⟨fl, fr, hp⟩ := forced_facts hc hx hx hl hr
    have : PartialSpec.pairForced c l r = (neither, c) := by
      unfold PartialSpec.pairForced
      rw [hp, hr]; split <;> rfl
    rw [this] at e h'
    exact ⟨m', e, h'.shows⟩
  · intro hn
    have : PartialSpec.pairForced c l r = (neither, c) := by
      unfold PartialSpec.pairForced
      rcases absent_find hn with h | h <;> rw [h]
      · rfl
      · cases (findL c l).bind leftOf <;> rfl
    rw [this] at e h'
    exact ⟨m', e, h'.shows⟩

example : ∃ o m', demo.pairForced 1 20 = .ok (o, m') ∧ toPair o = (some 2, some 10) ∧
    Shows m' [someBoth 1 20, someLeft 2, someRight 10, someRight 30, someLeft 3] :=
  (C39_pair_forced demo_reachable demo_shows 1 20).1 (someBoth 1 10) (someBoth 2 20) 1 20 (by simp) (by simp)
    rfl rfl rfl rfl rfl
example : ∃ m', demo.pairForced 1 10 = .ok (neither, m') ∧ Shows m' [someRight 30, someLeft 3, someBoth 2 20, someBoth 1 10] :=
  (C39_pair_forced demo_reachable demo_shows 1 10).2.1 (someBoth 1 10) (by simp) rfl rfl
example : ∃ m', demo.pairForced 1 77 = .ok (neither, m') ∧ Shows m' [someRight 30, someLeft 3, someBoth 2 20, someBoth 1 10] :=
  (C39_pair_forced demo_reachable demo_shows 1 77).2.2 (.inr (by simp [hasR]))

/-- C40: `pair_forced_remove(l, r)`: the same, but the former partners leave the map. -/
theorem C40_pair_forced_remove (h : Reachable m) (hc : Shows m c) (l : L) (r : R) :
    (∀ x y a b, x ∈ c → y ∈ c → hasL l x = true → hasR r y = true → leftOf x = some a → rightOf y = some b →
      hasR r x = false → ∃ o m', m.pairForcedRemove l r = .ok (o, m') ∧ toPair o = (leftOf y, rightOf x) ∧
        Shows m' (someBoth a b :: c.filter fun e => !hasL l e && !hasR r e)) ∧
    (∀ x ∈ c, hasL l x = true → hasR r x = true → ∃ m', m.pairForcedRemove l r = .ok (neither, m') ∧ Shows m' c) ∧
    ((∀ e ∈ c, hasL l e = false) ∨ (∀ e ∈ c, hasR r e = false) →
      ∃ m', m.pairForcedRemove l r = .ok (neither, m') ∧ Shows m' c) := by
  have h := h.repr_of_shows hc
  obtain ⟨m', e, h', _⟩ := pairForcedRemove_refines h l r
  refine ⟨?_, ?_, ?_⟩
  · intro x y a b hx hy hl hr ha hb hn
    obtain ⟨fl, fr, hp⟩ := forced_facts hc hx hy hl hr
    simp only [PartialSpec.pairForcedRemove, fl, fr, Option.bind_some, ha, hb, hp, hn, Bool.false_eq_true, if_false] at e h'
    exact ⟨_, m', e, (OptionalPair.C01_pair_roundtrip).2 _, h'.shows⟩
  · intro x hx hl hr
    obtain ⟨fl, fr, hp⟩ := forced_facts hc hx hx hl hr
    have : PartialSpec.pairForcedRemove c l r = (neither, c) := by
      unfold PartialSpec.pairForcedRemove
      rw [hp, hr]; split <;> rfl
    rw [this] at e h'
    exact ⟨m', e, h'.shows⟩
  · intro hn
    have : PartialSpec.pairForcedRemove c l r = (neither, c) := by
      unfold PartialSpec.pairForcedRemove
      rcases absent_find hn with h | h <;> rw [h]
      · rfl
      · cases (findL c l).bind leftOf <;> rfl
    rw [this] at e h'
    exact ⟨m', e, h'.shows⟩

example : ∃ o m', demo.pairForcedRemove 1 20 = .ok (o, m') ∧ toPair o = (some 2, some 10) ∧
    Shows m' [someBoth 1 20, someRight 30, someLeft 3] :=
  (C40_pair_forced_remove demo_reachable demo_shows 1 20).1 (someBoth 1 10) (someBoth 2 20) 1 20 (by simp) (by simp)
    rfl rfl rfl rfl rfl
example : ∃ o m', demo.pairForcedRemove 3 20 = .ok (o, m') ∧ toPair o = (some 2, none) ∧
    Shows m' [someBoth 3 20, someRight 30, someBoth 1 10] :=
  (C40_pair_forced_remove demo_reachable demo_shows 3 20).1 (someLeft 3) (someBoth 2 20) 3 20 (by simp) (by simp)
    rfl rfl rfl rfl rfl

/-- C41 in full: `unpair` acts exactly on partners.  False, see `C41_false`. -/
def C41_full : Prop :=
  ∀ [RawImpl] [LawfulRaw] (L R : Type) [BEq L] [BEq R] [EquivBEq L] [EquivBEq R] (m : PartialMap L R)
    (c : List (OptionalPair L R)) (l : L) (r : R), Reachable m → Shows m c →
    (∀ a b, someBoth a b ∈ c → (l == a) = true → (r == b) = true →
      ∃ m', m.unpair l r = (true, m') ∧
        Shows m' (someLeft a :: someRight b :: c.filter fun e => !hasL l e && !hasR r e)) ∧
    ((∀ e ∈ c, (hasL l e && hasR r e) = false) → ∃ m', m.unpair l r = (false, m') ∧ Shows m' c)

/-- C41, what holds: partners are always unpaired properly; and nothing happens to non-partners, unless
both of them have a partner and the hash of each argument equals the hash of the other's partner.
Missing: that case, for which see `C41_actual`. -/
theorem C41_partial (h : Reachable m) (hc : Shows m c) (l : L) (r : R) :
    (∀ a b, someBoth a b ∈ c → (l == a) = true → (r == b) = true →
      ∃ m', m.unpair l r = (true, m') ∧
        Shows m' (someLeft a :: someRight b :: c.filter fun e => !hasL l e && !hasR r e)) ∧
    ((∀ e ∈ c, (hasL l e && hasR r e) = false) →
      (∀ a b a' b', someBoth a b ∈ c → someBoth a' b' ∈ c → (l == a) = true → (r == b') = true →
        m.hb.hr r = m.hb.hr b → m.hb.hl l ≠ m.hb.hl a') →
      ∃ m', m.unpair l r = (false, m') ∧ Shows m' c) := by
  have h := h.repr_of_shows hc
  constructor
  · intro a b hm hl hr
    have hp : hasPair c l r = true := List.any_eq_true.2 ⟨_, hm, by simp [hasL, hasR, hl, hr]⟩
    obtain ⟨m', e, h', _⟩ := unpair_refines h l r (fun _ _ _ _ _ _ _ _ _ _ => hp)
    simp only [PartialSpec.unpair, hp, if_true, mem_findL h.oneToOne hm (l := l) hl,
      mem_findR h.oneToOne hm (r := r) hr] at e h'
    exact ⟨m', e, h'.shows⟩
  · intro hn hx
    have hp : hasPair c l r = false := by simpa [hasPair] using hn
    obtain ⟨m', e, h', _⟩ := unpair_refines h l r
      (fun a b a' b' h1 h2 h3 h4 h5 h6 => absurd h6 (hx a b a' b' h1 h2 h3 h4 h5))
    simp only [PartialSpec.unpair, hp, Bool.false_eq_true, if_false] at e h'
    exact ⟨m', e, h'.shows⟩

example : ∃ m', demo.unpair 1 10 = (true, m') ∧ Shows m' [someLeft 1, someRight 10, someRight 30, someLeft 3, someBoth 2 20] :=
  (C41_partial demo_reachable demo_shows 1 10).1 1 10 (by simp) rfl rfl
/-- one of the two is alone -/
example : ∃ m', demo.unpair 1 30 = (false, m') ∧ Shows m' [someRight 30, someLeft 3, someBoth 2 20, someBoth 1 10] :=
  (C41_partial demo_reachable demo_shows 1 30).2 (by simp [hasL, hasR])
    (by intro a b a' b' _ h2 _ h4; simp at h2 h4; omega)

/-- What happens in the remaining case: `l` is paired with `b`, `r` with `a'`, and the hashes agree crosswise.
`unpair` claims success and cuts one half of each pair: `l` is alone, but `b` still counts as paired, without a
partner to be found; removing `b` or `a'` panics. -/
theorem C41_actual (h : Reachable m) (hc : Shows m c) {l : L} {r : R} {a a' : L} {b b' : R}
    (h1 : someBoth a b ∈ c) (h2 : someBoth a' b' ∈ c) (hl : (l == a) = true) (hr : (r == b') = true)
    (hn : (r == b) = false) (hr' : m.hb.hr r = m.hb.hr b) (hl' : m.hb.hl l = m.hb.hl a') :
    m.arePaired l r = false ∧ ∃ m', m.unpair l r = (true, m') ∧ m'.getRight l = none ∧
      m'.isRightPaired b = true ∧ m'.getLeft b = none ∧ m'.removeViaRight b = .error .unwrapNone ∧
      m'.removeViaLeft a' = .error .unwrapNone := by
  have h := h.repr_of_shows hc
  have fl := mem_findL h.oneToOne h1 (l := l) hl
  have fr := mem_findR h.oneToOne h2 (r := r) hr
  rcases h.casesLR l r with ⟨hn, _⟩ | ⟨hn, _⟩ | ⟨x, y, i, ps, hr, hp, hxl, hyr, hnl, hnr⟩ |
    ⟨⟨p, i⟩, ⟨q, j⟩, ps, hrep, hp, hpl, hpr, hqr, hql, hnl, hnr⟩
  · have := hn _ h1; simp [hasL, hl] at this
  · have := hn _ h2; simp [hasR, hr] at this
  · have := fl.symm.trans (findL_some hp hxl (forall_map hnl))
    cases this; rw [hn] at hyr; cases hyr
  have e1 := fl.symm.trans (findL_two hp hpl hql hnl)
  have e2 := fr.symm.trans (findR_two hp hqr hpr hnr)
  cases e1; cases e2
  have hpair := hasPair_two hp hpr hql hnl
  refine ⟨by rw [arePaired_refines h, hpair], ?_⟩
  obtain ⟨x, w1, hx, g1, f1⟩ := hrep.getMut_left_some (l := l) hpl
  obtain ⟨y, w2, hy, g2, f2⟩ := hrep.swap.getMut_right_some (r := r) hqr
  cases hx; cases hy
  have hdis := hrep.tailApart ⟨someBoth a' b', j⟩ (by simp)
  have hlt := hrep.bound
  have hij : i ≠ j := hdis.1
  have hi : i < m.counter := hlt ⟨someBoth a b, i⟩ (by simp)
  have hj : j < m.counter := hlt ⟨someBoth a' b', j⟩ (by simp)
  have hpsi : ∀ q ∈ ps, i ≠ q.id := fun q hq => hrep.ids q (by simp [hq])
  have hpsj : ∀ q ∈ ps, j ≠ q.id := fun q hq => hrep.swap.ids q (by simp [hq])
  have f1 := f1 ⟨a, none, i⟩
  have f2 := f2 ⟨b', none, m.counter⟩
  generalize hw1 : w1 ⟨a, none, i⟩ = tl at f1
  generalize hw2 : w2 ⟨b', none, m.counter⟩ = tr at f2
  have pl : tl.entries.Perm ((m.hb.hl l, ⟨a, none, i⟩) :: (m.hb.hl a', ⟨a', some (m.hb.hr b'), j⟩) :: tabL m.hb ps) := f1
  have pr : tr.entries.Perm ((m.hb.hr r, ⟨b', none, m.counter⟩) :: (m.hb.hr b, ⟨b, some (m.hb.hl a), i⟩) :: tabR m.hb ps) := f2
  have hrb' := m.hb.hr_congr _ _ hr
  have hla := m.hb.hl_congr _ _ hl
  refine ⟨{ m with counter := m.counter + 1, left := tl, right := tr }, ?_, ?_, ?_, ?_, ?_, ?_⟩
  · simp only [unpair, g1, g2, hw1, hw2]
    rw [hr', hl']; simp
  · -- `l` is alone
    have : tl.get (m.hb.hl l) (fun x => l == x.value) = some ⟨a, none, i⟩ := by
      refine RawTable.get_some pl rfl hl ?_
      intro e he
      rcases List.mem_cons.1 he with rfl | he
      · simpa [hasL] using hql
      · exact keysL hnl e he
    simp [getRight, getRightBy, this]
  all_goals
    have hbb : (b == b') = false := by
      have := hdis.2.2 b rfl; simpa [hasR] using this
    have hkey : ∀ e ∈ (m.hb.hr r, (⟨b', none, m.counter⟩ : MappingPair R)) :: tabR m.hb ps, equivalentKey b e.2 = false := by
      intro e he
      rcases List.mem_cons.1 he with rfl | he
      · exact hbb
      · exact keysR (fun q hq => hasR_false_of (x := someBoth a b) (by simp [hasR]) (hrep.tailApart q (by simp [hq])).2) e he
    have pr' := pr.trans (List.Perm.swap _ _ _)
    have gb : tr.get (m.hb.hr b) (equivalentKey b) = some ⟨b, some (m.hb.hl a), i⟩ :=
      RawTable.get_some pr' rfl BEq.rfl hkey
    have nl : ∀ x ∈ tl.entries, hashAndId (m.hb.hr b) i x.2 = false := by
      intro x hx
      rcases List.mem_cons.1 (pl.mem_iff.1 hx) with rfl | hx
      · simp [hashAndId]
      rcases List.mem_cons.1 hx with rfl | hx
      · simp [hashAndId, hij]
      · exact hidsL _ hpsi x hx
  · simp only [isRightPaired, gb]; rfl
  · have : tr.get (m.hb.hr b) (fun x => b == x.value) = some ⟨b, some (m.hb.hl a), i⟩ := gb
    simp [getLeft, getLeftBy, this, RawTable.get_none nl]
  · obtain ⟨t', e, _⟩ := RawTable.removeEntry_some (h := m.hb.hr b) (p := equivalentKey b) pr' rfl BEq.rfl hkey
    simp [removeViaRight, e, RawTable.removeEntry_none nl]
  · have hka : ∀ e ∈ (m.hb.hl l, (⟨a, none, i⟩ : MappingPair L)) :: tabL m.hb ps, equivalentKey a' e.2 = false := by
      intro e he
      rcases List.mem_cons.1 he with rfl | he
      · have := hdis.symm.2.1 a' rfl; simpa [hasL, equivalentKey] using this
      · exact keysL (fun q hq => hasL_false_of (x := someBoth a' b') (by simp [hasL]) (hrep.swap.tailApart q (by simp [hq])).2) e he
    obtain ⟨t', e, _⟩ := RawTable.removeEntry_some (h := m.hb.hl a') (p := equivalentKey a') (pl.trans (List.Perm.swap _ _ _)) rfl BEq.rfl hka
    have nr : ∀ x ∈ tr.entries, hashAndId (m.hb.hl a') j x.2 = false := by
      intro x hx
      rcases List.mem_cons.1 (pr.mem_iff.1 hx) with rfl | hx
      · simp [hashAndId]
      rcases List.mem_cons.1 hx with rfl | hx
      · simp [hashAndId, Ne.symm hij]
      · exact hidsR _ hpsj x hx
    simp [removeViaLeft, e, RawTable.removeEntry_none nr]

omit [RawImpl] [LawfulRaw] in
/-- the witness: everything collides, and `unpair(1, 20)` is called on `{1: 10, 2: 20}` -/
theorem C41_false : ¬ C41_full := by
  intro h
  letI := messyRaw; haveI := messyRaw_lawful
  obtain ⟨m', e, _⟩ := (h Nat Nat demo _ 1 20 demo_reachable demo_shows).2 (by simp [hasL, hasR])
  obtain ⟨_, m'', e', _⟩ := C41_actual demo_reachable demo_shows (l := 1) (r := 20) (a := 1) (a' := 2) (b := 10) (b' := 20)
    (by simp) (by simp) rfl rfl rfl (by rw [demo_hb]; rfl) (by rw [demo_hb]; rfl)
  rw [e] at e'; cases e'

/-! ### C42 -/

/-- C42: the queries, read off the entries.  (`getRight` and `getLeft` return the stored partner.) -/
theorem C42_queries (h : Reachable m) (hc : Shows m c) :
    (∀ l, m.containsLeft l = true ↔ ∃ e ∈ c, hasL l e = true) ∧
    (∀ r, m.containsRight r = true ↔ ∃ e ∈ c, hasR r e = true) ∧
    (∀ l, m.isLeftPaired l = true ↔ ∃ a b, someBoth a b ∈ c ∧ (l == a) = true) ∧
    (∀ r, m.isRightPaired r = true ↔ ∃ a b, someBoth a b ∈ c ∧ (r == b) = true) ∧
    (∀ l r, m.arePaired l r = true ↔ ∃ a b, someBoth a b ∈ c ∧ (l == a) = true ∧ (r == b) = true) ∧
    (∀ l b, m.getRight l = some b ↔ ∃ a, someBoth a b ∈ c ∧ (l == a) = true) ∧
    (∀ r a, m.getLeft r = some a ↔ ∃ b, someBoth a b ∈ c ∧ (r == b) = true) := by
  have h := h.repr_of_shows hc
  have s := h.shows
  refine ⟨?_, ?_, ?_, ?_, ?_, ?_, ?_⟩
  · intro l; rw [s.containsLeft, List.any_eq_true]
  · intro r; rw [s.containsRight, List.any_eq_true]
  · intro l
    rw [s.isLeftPaired, List.any_eq_true]
    constructor
    · rintro ⟨e, he, hx⟩; cases e <;> simp [isPair, hasL] at hx; exact ⟨_, _, he, hx⟩
    · rintro ⟨a, b, he, hx⟩; exact ⟨_, he, by simpa [isPair, hasL] using hx⟩
  · intro r
    rw [s.isRightPaired, List.any_eq_true]
    constructor
    · rintro ⟨e, he, hx⟩; cases e <;> simp [isPair, hasR] at hx; exact ⟨_, _, he, hx⟩
    · rintro ⟨a, b, he, hx⟩; exact ⟨_, he, by simpa [isPair, hasR] using hx⟩
  · intro l r
    rw [s.arePaired, hasPair, List.any_eq_true]
    constructor
    · rintro ⟨e, he, hx⟩; cases e <;> simp [hasL, hasR] at hx; exact ⟨_, _, he, hx⟩
    · rintro ⟨a, b, he, hx⟩; exact ⟨_, he, by simpa [hasL, hasR] using hx⟩
  · intro l b
    rw [s.getRight]
    constructor
    · intro e
      obtain ⟨x, hf, hx⟩ := Option.bind_eq_some_iff.1 e
      have ⟨hm, hl⟩ := s.findL_mem hf
      cases x <;> simp [rightOf, hasL] at hx hl
      subst hx; exact ⟨_, hm, hl⟩
    · rintro ⟨a, hm, hl⟩
      rw [mem_findL s.oneToOne hm (l := l) hl]; rfl
  · intro r a
    rw [s.getLeft]
    constructor
    · intro e
      obtain ⟨x, hf, hx⟩ := Option.bind_eq_some_iff.1 e
      have ⟨hm, hl⟩ := s.findR_mem hf
      cases x <;> simp [leftOf, hasR] at hx hl
      subst hx; exact ⟨_, hm, hl⟩
    · rintro ⟨b, hm, hl⟩
      rw [mem_findR s.oneToOne hm (r := r) hl]; rfl

example : demo.getRight 2 = some 20 ∧ demo.isLeftPaired 3 = false ∧ demo.containsLeft 3 = true :=
  have q := C42_queries demo_reachable demo_shows
  ⟨(q.2.2.2.2.2.1 2 20).2 ⟨2, by simp, rfl⟩, by rw [demo_shows.isLeftPaired]; rfl, (q.1 3).2 ⟨someLeft 3, by simp, rfl⟩⟩

/-! ### C43–C45: removal -/

/-- C43: removing via an item takes away and returns the entry of that item. -/
theorem C43_remove_via (h : Reachable m) (hc : Shows m c) :
    (∀ l, ∃ o m', m.removeViaLeft l = .ok (o, m') ∧ o = (c.find? fun e => hasL l e).getD neither ∧
      (∀ r, o ≠ someRight r) ∧ Shows m' (c.filter fun e => !hasL l e)) ∧
    (∀ r, ∃ o m', m.removeViaRight r = .ok (o, m') ∧ o = (c.find? fun e => hasR r e).getD neither ∧
      (∀ l, o ≠ someLeft l) ∧ Shows m' (c.filter fun e => !hasR r e)) := by
  have h := h.repr_of_shows hc
  constructor
  · intro l
    obtain ⟨m', e, h', _⟩ := removeViaLeft_refines h l
    refine ⟨_, m', e, rfl, ?_, h'.shows⟩
    intro r
    cases hf : findL c l with
    | none => simp
    | some x => have := (hc.findL_mem hf).2; rintro rfl; cases this
  · intro r
    obtain ⟨m', e, h', _⟩ := removeViaRight_refines h r
    refine ⟨_, m', e, rfl, ?_, h'.shows⟩
    intro r
    cases hf : findR c _ with
    | none => simp
    | some x => have := (hc.findR_mem hf).2; rintro rfl; cases this

example : ∃ o m', demo.removeViaRight 20 = .ok (o, m') ∧ o = someBoth 2 20 ∧ (∀ l, o ≠ someLeft l) ∧
    Shows m' [someRight 30, someLeft 3, someBoth 1 10] := (C43_remove_via demo_reachable demo_shows).2 20

/-- C44: removing just one item; its partner stays, alone. -/
theorem C44_remove_one (h : Reachable m) (hc : Shows m c) :
    (∀ l, (∀ a b, someBoth a b ∈ c → (l == a) = true →
        ∃ m', m.removeLeft l = .ok (some a, m') ∧ Shows m' (someRight b :: c.filter fun e => !hasL l e)) ∧
      (∀ a, someLeft a ∈ c → (l == a) = true →
        ∃ m', m.removeLeft l = .ok (some a, m') ∧ Shows m' (c.filter fun e => !hasL l e)) ∧
      ((∀ e ∈ c, hasL l e = false) → ∃ m', m.removeLeft l = .ok (none, m') ∧ Shows m' c)) ∧
    (∀ r, (∀ a b, someBoth a b ∈ c → (r == b) = true →
        ∃ m', m.removeRight r = .ok (some b, m') ∧ Shows m' (someLeft a :: c.filter fun e => !hasR r e)) ∧
      (∀ b, someRight b ∈ c → (r == b) = true →
        ∃ m', m.removeRight r = .ok (some b, m') ∧ Shows m' (c.filter fun e => !hasR r e)) ∧
      ((∀ e ∈ c, hasR r e = false) → ∃ m', m.removeRight r = .ok (none, m') ∧ Shows m' c)) := by
  have h := h.repr_of_shows hc
  constructor
  · intro l
    obtain ⟨m', e, h', _⟩ := removeLeft_refines h l
    refine ⟨?_, ?_, ?_⟩
    · intro a b hm hl
      simp only [PartialSpec.removeLeft, mem_findL h.oneToOne hm (l := l) hl] at e h'
      exact ⟨m', e, h'.shows⟩
    · intro a hm hl
      simp only [PartialSpec.removeLeft, mem_findL h.oneToOne hm (l := l) hl] at e h'
      exact ⟨m', e, h'.shows⟩
    · intro hn
      simp only [PartialSpec.removeLeft, findL_none hn, eraseL_none hn] at e h'
      exact ⟨m', e, h'.shows⟩
  · intro r
    obtain ⟨m', e, h', _⟩ := removeRight_refines h r
    refine ⟨?_, ?_, ?_⟩
    · intro a b hm hl
      simp only [PartialSpec.removeRight, mem_findR h.oneToOne hm (r := r) hl] at e h'
      exact ⟨m', e, h'.shows⟩
    · intro a hm hl
      simp only [PartialSpec.removeRight, mem_findR h.oneToOne hm (r := r) hl] at e h'
      exact ⟨m', e, h'.shows⟩
    · intro hn
      simp only [PartialSpec.removeRight, findR_none hn, eraseR_none hn] at e h'
      exact ⟨m', e, h'.shows⟩

example : ∃ m', demo.removeLeft 1 = .ok (some 1, m') ∧ Shows m' [someRight 10, someRight 30, someLeft 3, someBoth 2 20] :=
  ((C44_remove_one demo_reachable demo_shows).1 1).1 1 10 (by simp) rfl
example : ∃ m', demo.removeRight 30 = .ok (some 30, m') ∧ Shows m' [someLeft 3, someBoth 2 20, someBoth 1 10] :=
  ((C44_remove_one demo_reachable demo_shows).2 30).2.1 30 (by simp) rfl

/-- C45: `remove(l, r)` removes and returns the stored items exactly when they are partners. -/
theorem C45_remove (h : Reachable m) (hc : Shows m c) (l : L) (r : R) :
    (∀ a b, someBoth a b ∈ c → (l == a) = true → (r == b) = true →
      ∃ m', m.remove l r = .ok (some (a, b), m') ∧ Shows m' (c.filter fun e => !(hasL l e && hasR r e))) ∧
    ((∀ e ∈ c, (hasL l e && hasR r e) = false) → ∃ m', m.remove l r = .ok (none, m') ∧ Shows m' c) := by
  have h := h.repr_of_shows hc
  obtain ⟨m', e, h', _⟩ := remove_refines h l r
  constructor
  · intro a b hm hl hr
    have hp : hasPair c l r = true := List.any_eq_true.2 ⟨_, hm, by simp [hasL, hasR, hl, hr]⟩
    have fl := mem_findL h.oneToOne hm (l := l) hl
    simp only [PartialSpec.remove, hp, if_true, fl] at e h'
    have : eraseL c l = c.filter fun e => !(hasL l e && hasR r e) := by
      apply List.filter_congr
      intro q hq
      cases hql : hasL l q with
      | false => rfl
      | true =>
        have := fl.symm.trans (mem_findL h.oneToOne hq hql)
        cases this; simp [hasR, hr]
    rw [← this]
    exact ⟨m', e, h'.shows⟩
  · intro hn
    have hp : hasPair c l r = false := by simpa [hasPair] using hn
    simp only [PartialSpec.remove, hp, Bool.false_eq_true, if_false] at e h'
    exact ⟨m', e, h'.shows⟩

example : ∃ m', demo.remove 1 10 = .ok (some (1, 10), m') ∧ Shows m' [someRight 30, someLeft 3, someBoth 2 20] :=
  (C45_remove demo_reachable demo_shows 1 10).1 1 10 (by simp) rfl rfl
example : ∃ m', demo.remove 3 30 = .ok (none, m') ∧ Shows m' [someRight 30, someLeft 3, someBoth 2 20, someBoth 1 10] :=
  (C45_remove demo_reachable demo_shows 3 30).2 (by simp [hasL, hasR])

end Verif.PartialMap
