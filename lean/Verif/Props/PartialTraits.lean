import Verif.Props.PartialIter
import Verif.PartialMap.SpecLemmas
import Verif.PartialMap.Counter
/-! Properties C56–C59 of `PartialCycleMap` (equality, extension, sizes and capacity, hash independence), its
part of C32, and C81, C82 (cloning, borrowed lookup). -/
set_option linter.unusedSectionVars false
set_option linter.unusedSimpArgs false
namespace Verif.PartialMap
open PartialSpec OptionalPair Demo

variable [RawImpl] [LawfulRaw] {L R : Type} [BEq L] [BEq R] [EquivBEq L] [EquivBEq R]
variable {m : PartialMap L R} {c : List (OptionalPair L R)}

/-! ### C56 -/

/-- C56 in full: `==` never panics and holds exactly if the two maps have the same pairs and lone items (up to
`==` of the items).  False, see `C56_false`. -/
def C56_full : Prop :=
  ∀ [RawImpl] [LawfulRaw] (L R : Type) [BEq L] [BEq R] [EquivBEq L] [EquivBEq R] (m m' : PartialMap L R)
    (c c' : List (OptionalPair L R)), Reachable m → Shows m c → Reachable m' → Shows m' c' →
    ∃ b, m.eq m' = .ok b ∧ (b = true ↔ (∀ e ∈ c, ∃ e' ∈ c', Same e e') ∧ (∀ e' ∈ c', ∃ e ∈ c, Same e' e))

/-- What `==` computes: it is true if *one* of the two sides has the same number of items in both maps, every
pair of the first map is a pair of the second, and no lone left item of the first map has a partner in the
second (it may be missing there). -/
theorem C56_actual {m' : PartialMap L R} {c' : List (OptionalPair L R)} (h : Reachable m) (hc : Shows m c)
    (h' : Reachable m') (hc' : Shows m' c') :
    ∃ b, m.eq m' = .ok b ∧ (b = true ↔
      (m.lenLeft = m'.lenLeft ∨ m.lenRight = m'.lenRight) ∧
      (∀ x y, someBoth x y ∈ c → ∃ x' y', someBoth x' y' ∈ c' ∧ (x == x') = true ∧ (y == y') = true) ∧
      (∀ x, someLeft x ∈ c → ∀ x' y', someBoth x' y' ∈ c' → (x == x') = false)) := by
  refine ⟨_, eq_refines (h.repr_of_shows hc) (h'.repr_of_shows hc'), ?_⟩
  rw [hc.lenLeft, hc'.lenLeft, hc.lenRight, hc'.lenRight, Bool.and_eq_true, List.all_eq_true]
  refine and_congr ?_ ?_
  · simp [bne_iff_ne, Classical.or_iff_not_imp_left]
  · constructor
    · intro h
      refine ⟨fun x y hxy => ?_, fun x hx x' y' hxy' => ?_⟩
      · have := h _ (List.mem_filter.2 ⟨hxy, rfl⟩)
        simp only [eqCheck, hasPair, List.any_eq_true] at this
        obtain ⟨e, he, hb⟩ := this
        cases e <;> simp [hasL, hasR] at hb
        exact ⟨_, _, he, hb⟩
      · have := h _ (List.mem_filter.2 ⟨hx, rfl⟩)
        simp only [eqCheck] at this
        cases hb : x == x' with
        | false => rfl
        | true => rw [mem_findL hc'.oneToOne hxy' (l := x) hb] at this; cases this
    · rintro ⟨h1, h2⟩ e he
      obtain ⟨he, hl⟩ := List.mem_filter.1 he
      cases e with
      | neither => cases hl
      | someRight => cases hl
      | someBoth x y =>
        obtain ⟨x', y', hm, e1, e2⟩ := h1 x y he
        exact List.any_eq_true.2 ⟨_, hm, by simp [hasL, hasR, e1, e2]⟩
      | someLeft x =>
        simp only [eqCheck]
        cases hf : findL c' x with
        | none => rfl
        | some e =>
          have hm := List.mem_of_find?_eq_some hf
          rcases hasL_cases (List.find?_some hf) with ⟨a, rfl, _⟩ | ⟨a, b, rfl, hx⟩
          · rfl
          · rw [h2 x he a b hm] at hx; cases hx

/-- C56, what holds: maps with the same pairs and lone items always compare equal; and for two maps with the
same left items and the same right items, `==` says exactly whether they have the same pairs and lone items (so
it is symmetric on such maps).
Missing: maps with different items; see `C56_actual` for what happens then. -/
theorem C56_eq_partial {m' : PartialMap L R} {c' : List (OptionalPair L R)} (h : Reachable m) (hc : Shows m c)
    (h' : Reachable m') (hc' : Shows m' c') :
    ((∀ e ∈ c, ∃ e' ∈ c', Same e e') → (∀ e' ∈ c', ∃ e ∈ c, Same e' e) → m.eq m' = .ok true) ∧
    ((∀ l, m.containsLeft l = m'.containsLeft l) → (∀ r, m.containsRight r = m'.containsRight r) →
      ∃ b, m.eq m' = .ok b ∧ (b = true ↔ (∀ e ∈ c, ∃ e' ∈ c', Same e e') ∧ (∀ e' ∈ c', ∃ e ∈ c, Same e' e))) := by
  obtain ⟨b, e, hb⟩ := C56_actual h hc h' hc'
  have key : (∀ e ∈ c, ∃ e' ∈ c', Same e e') → (∀ e' ∈ c', ∃ e ∈ c, Same e' e) → b = true := by
    intro s1 s2
    refine hb.2 ⟨.inl ?_, ?_, ?_⟩
    · rw [hc.lenLeft, hc'.lenLeft]
      exact Nat.le_antisymm (length_le_of_sub (lefts_apart hc.oneToOne) (Sub.lefts s1))
        (length_le_of_sub (lefts_apart hc'.oneToOne) (Sub.lefts s2))
    · intro x y hxy
      obtain ⟨e', he', hs⟩ := s1 _ hxy
      cases e' <;> simp only [Same] at hs
      exact ⟨_, _, he', hs⟩
    · intro x hx x' y' hxy'
      obtain ⟨e', he', hs⟩ := s1 _ hx
      cases e' <;> simp only [Same] at hs
      cases hb : x == x' with
      | false => rfl
      | true => cases hc'.oneToOne.uniqueL (l := x) he' hxy' hs hb
  refine ⟨fun s1 s2 => by rw [e, key s1 s2], fun hL hR => ⟨b, e, ?_, fun hs => key hs.1 hs.2⟩⟩
  intro hbt
  obtain ⟨_, hp, hlone⟩ := hb.1 hbt
  have memL : ∀ {l : L} {d : List (OptionalPair L R)} {n : PartialMap L R}, Shows n d →
      (n.containsLeft l = true ↔ ∃ e ∈ d, hasL l e = true) := by
    intro l d n hn; rw [hn.containsLeft, List.any_eq_true]
  have memR : ∀ {r : R} {d : List (OptionalPair L R)} {n : PartialMap L R}, Shows n d →
      (n.containsRight r = true ↔ ∃ e ∈ d, hasR r e = true) := by
    intro r d n hn; rw [hn.containsRight, List.any_eq_true]
  -- a pair of `c'` is a pair of `c`
  have back : ∀ x' y', someBoth x' y' ∈ c' → ∃ x y, someBoth x y ∈ c ∧ (x == x') = true ∧ (y == y') = true := by
    intro x' y' hm
    have : m.containsLeft x' = true := by rw [hL]; exact (memL hc').2 ⟨_, hm, by simp [hasL]⟩
    obtain ⟨e, he, hx⟩ := (memL hc).1 this
    rcases hasL_cases hx with ⟨a, rfl, ha⟩ | ⟨a, b, rfl, ha⟩
    · have := hlone a he x' y' hm
      rw [BEq.symm ha] at this; cases this
    · obtain ⟨u, v, huv, h1, h2⟩ := hp a b he
      cases hc'.oneToOne.uniqueL (l := a) huv hm h1 (BEq.symm ha)
      exact ⟨a, b, he, h1, h2⟩
  constructor
  · intro e he
    cases e with
    | neither => exact absurd he hc.oneToOne.2
    | someBoth x y =>
      obtain ⟨x', y', hm, hs⟩ := hp x y he
      exact ⟨_, hm, hs⟩
    | someLeft x =>
      have : m'.containsLeft x = true := by rw [← hL]; exact (memL hc).2 ⟨_, he, by simp [hasL]⟩
      obtain ⟨e', he', hx⟩ := (memL hc').1 this
      rcases hasL_cases hx with ⟨a, rfl, ha⟩ | ⟨a, b, rfl, ha⟩
      · exact ⟨_, he', ha⟩
      · have := hlone x he a b he'
        rw [ha] at this; cases this
    | someRight y =>
      have : m'.containsRight y = true := by rw [← hR]; exact (memR hc).2 ⟨_, he, by simp [hasR]⟩
      obtain ⟨e', he', hx⟩ := (memR hc').1 this
      rcases hasR_cases hx with ⟨a, rfl, ha⟩ | ⟨a, b, rfl, ha⟩
      · exact ⟨_, he', ha⟩
      · obtain ⟨u, v, huv, _, h2⟩ := back a b he'
        cases hc.oneToOne.uniqueR (r := y) he huv (by simp [hasR]) (BEq.trans ha (BEq.symm h2))
  · intro e' he'
    cases e' with
    | neither => exact absurd he' hc'.oneToOne.2
    | someBoth x' y' =>
      obtain ⟨x, y, hm, h1, h2⟩ := back x' y' he'
      exact ⟨_, hm, BEq.symm h1, BEq.symm h2⟩
    | someLeft x' =>
      have : m.containsLeft x' = true := by rw [hL]; exact (memL hc').2 ⟨_, he', by simp [hasL]⟩
      obtain ⟨e, he, hx⟩ := (memL hc).1 this
      rcases hasL_cases hx with ⟨a, rfl, ha⟩ | ⟨a, b, rfl, ha⟩
      · exact ⟨_, he, ha⟩
      · obtain ⟨u, v, huv, h1, _⟩ := hp a b he
        cases hc'.oneToOne.uniqueL (l := x') he' huv (by simp [hasL]) (BEq.trans ha h1)
    | someRight y' =>
      have : m.containsRight y' = true := by rw [hR]; exact (memR hc').2 ⟨_, he', by simp [hasR]⟩
      obtain ⟨e, he, hx⟩ := (memR hc).1 this
      rcases hasR_cases hx with ⟨a, rfl, ha⟩ | ⟨a, b, rfl, ha⟩
      · exact ⟨_, he, ha⟩
      · obtain ⟨u, v, huv, _, h2⟩ := hp a b he
        cases hc'.oneToOne.uniqueR (r := y') he' huv (by simp [hasR]) (BEq.trans ha h2)

/-- a map is equal to itself -/
theorem C56_refl (h : Reachable m) : m.eq m = .ok true := by
  obtain ⟨c, hc⟩ := h.repr
  exact (C56_eq_partial h hc.shows h hc.shows).1 (fun e he => ⟨e, he, .refl e⟩) (fun e he => ⟨e, he, .refl e⟩)

example : demo.eq demo = .ok true := C56_refl demo_reachable
/-- `demo` against the map in which 1 and 10 have been unpaired: same items, so the answer is right -/
example : ∃ m', demo.unpair 1 10 = (true, m') ∧ demo.eq m' = .ok false := by
  obtain ⟨m', e, s⟩ := (C41_partial demo_reachable demo_shows 1 10).1 1 10 (by simp) rfl rfl
  have r : Reachable m' := .step (op := .unpair 1 10) (o := .bool true) demo_reachable
    (by intro l r hx _ _ _ _ _ _; cases hx; rw [demo_shows.arePaired]; decide) (by simp) (by simp) (by simp only [exec, e])
  obtain ⟨b, e', hb⟩ := (C56_eq_partial demo_reachable demo_shows r s).2
    (fun l => by
      rw [demo_shows.containsLeft, s.containsLeft]
      simp [hasL]
      cases l == 1 <;> cases l == 2 <;> cases l == 3 <;> rfl)
    (fun l => by
      rw [demo_shows.containsRight, s.containsRight]
      simp [hasR]
      cases l == 10 <;> cases l == 20 <;> cases l == 30 <;> rfl)
  refine ⟨m', e, ?_⟩
  cases b with
  | false => exact e'
  | true =>
    obtain ⟨x, hx, hs⟩ := (hb.1 rfl).1 (someBoth 1 10) (by simp)
    simp [hasL, hasR] at hx
    rcases hx with rfl | rfl | rfl | rfl | rfl <;> simp [Same] at hs

/-- the map with these entries, whatever the table implementation -/
theorem of_entries (hb : BuildHasher L R) (xs : List (OptionalPair L R)) :
    ∃ m : PartialMap L R, Reachable m ∧ Shows m (insertAll [] xs) := by
  obtain ⟨m, e, h, _⟩ := extend_refines (withHasher_repr hb) xs
  exact ⟨m, .step (op := .extend xs) (o := .unit) (.new hb) (by simp) (by simp) (by simp)
    (by simp only [exec, e]; rfl), h.shows⟩

omit [RawImpl] [LawfulRaw] in
/-- C56 in full is false: `{SomeLeft(1)} == {SomeLeft(2)}`. -/
theorem C56_false : ¬ C56_full := by
  intro h
  letI := messyRaw; haveI := messyRaw_lawful
  obtain ⟨m, r, s⟩ := of_entries constHash [someLeft 1]
  obtain ⟨m', r', s'⟩ := of_entries constHash [someLeft 2]
  have s : Shows m [someLeft 1] := s
  have s' : Shows m' [someLeft 2] := s'
  obtain ⟨b, e, hb⟩ := C56_actual r s r' s'
  obtain ⟨b', e', hb'⟩ := h Nat Nat m m' _ _ r s r' s'
  rw [e] at e'; cases e'
  have : b = true := hb.2 ⟨.inl (by rw [s.lenLeft, s'.lenLeft]; rfl), by simp, by simp⟩
  obtain ⟨x, hx, hs⟩ := (hb'.1 this).1 (someLeft 1) (by simp)
  simp at hx; subst hx; simp [Same] at hs

/-- … and `==` is not symmetric: `{SomeLeft(2)} == {SomeBoth(1, 10)}` but not conversely. -/
theorem C56_not_symmetric_false : ∃ m m' : PartialMap Nat Nat, Reachable m ∧ Reachable m' ∧
    m.eq m' = .ok true ∧ m'.eq m = .ok false := by
  obtain ⟨m, r, s⟩ := of_entries constHash [someLeft 2]
  obtain ⟨m', r', s'⟩ := of_entries constHash [someBoth 1 10]
  have s : Shows m [someLeft 2] := s
  have s' : Shows m' [someBoth 1 10] := s'
  obtain ⟨b, e, hb⟩ := C56_actual r s r' s'
  obtain ⟨b', e', hb'⟩ := C56_actual r' s' r s
  refine ⟨m, m', r, r', ?_, ?_⟩
  · rw [e, hb.2 ⟨.inl (by rw [s.lenLeft, s'.lenLeft]; rfl), by simp, by simp⟩]
  · cases b' with
    | false => exact e'
    | true =>
      obtain ⟨x, y, hm, _⟩ := (hb'.1 rfl).2.1 1 10 (by simp)
      simp at hm

/-! ### C57 -/

/-- C57: extending is inserting the elements one after the other, each by the call for its kind. -/
theorem C57_extend_is_inserts (h : Reachable m) (xs : List (OptionalPair L R)) :
    ∃ os m', m.extend xs = .ok m' ∧ m.run (xs.filterMap fun x => match x with
      | someBoth l r => some (.insert l r)
      | someLeft l => some (.insertLeft l)
      | someRight r => some (.insertRight r)
      | neither => none) = .ok (os, m') := by
  obtain ⟨c, hc⟩ := h.repr
  clear h
  induction xs generalizing m c with
  | nil => exact ⟨[], m, rfl, rfl⟩
  | cons x xs ih =>
    cases x with
    | neither =>
      obtain ⟨os, m2, e2, e3⟩ := ih _ hc
      exact ⟨os, m2, e2, e3⟩
    | someLeft l =>
      obtain ⟨m1, e1, h1, _⟩ := insertLeft_refines hc l
      obtain ⟨os, m2, e2, e3⟩ := ih _ h1
      refine ⟨.entry (PartialSpec.insertLeft c l).1 :: os, m2, ?_, ?_⟩
      · simp only [extend, e1, bind, Except.bind]; exact e2
      · simp only [List.filterMap_cons, run, exec, e1, bind, Except.bind, pure, Except.pure, e3]
    | someRight r =>
      obtain ⟨m1, e1, h1, _⟩ := insertRight_refines hc r
      obtain ⟨os, m2, e2, e3⟩ := ih _ h1
      refine ⟨.entry (PartialSpec.insertRight c r).1 :: os, m2, ?_, ?_⟩
      · simp only [extend, e1, bind, Except.bind]; exact e2
      · simp only [List.filterMap_cons, run, exec, e1, bind, Except.bind, pure, Except.pure, e3]
    | someBoth l r =>
      obtain ⟨m1, e1, h1, _⟩ := insert_refines hc l r
      obtain ⟨os, m2, e2, e3⟩ := ih _ h1
      refine ⟨.twoEntries (PartialSpec.insert c l r).1 :: os, m2, ?_, ?_⟩
      · simp only [extend, e1, bind, Except.bind]; exact e2
      · simp only [List.filterMap_cons, run, exec, e1, bind, Except.bind, pure, Except.pure, e3]

theorem mem_insertAll {xs : List (OptionalPair L R)} {p : OptionalPair L R} :
    p ∈ survivors xs ++ c.filter (fun e => !xs.any (clash · e)) ↔
      (p ≠ neither ∧ ∃ ys zs, xs = ys ++ p :: zs ∧ ∀ z ∈ zs, Disj z p) ∨ (p ∈ c ∧ ∀ z ∈ xs, Disj z p) := by
  rw [List.mem_append, mem_survivors, List.mem_filter]
  refine or_congr Iff.rfl (and_congr Iff.rfl ?_)
  simp only [Bool.not_eq_true', List.any_eq_false, ← clash_iff]
  simp

/-- C57: an element of the sequence is in the result exactly if no later element shares an item with it, an old
entry exactly if no element of the sequence does.  (`Neither` is ignored.) -/
theorem C57_extend (h : Reachable m) (hc : Shows m c) (xs : List (OptionalPair L R)) :
    ∃ m' c', m.extend xs = .ok m' ∧ Shows m' c' ∧ ∀ p, p ∈ c' ↔
      (p ≠ neither ∧ ∃ ys zs, xs = ys ++ p :: zs ∧ ∀ z ∈ zs, Disj z p) ∨ (p ∈ c ∧ ∀ z ∈ xs, Disj z p) := by
  obtain ⟨m', e, h', _⟩ := extend_refines (h.repr_of_shows hc) xs
  exact ⟨m', _, e, (h'.perm (insertAll_perm xs c)).shows, fun p => mem_insertAll⟩

/-- C57 for sequences of pairs: the same as inserting the pairs in order. -/
theorem C57_extend_pairs (h : Reachable m) (xs : List (L × R)) :
    (∃ m', m.extendPairs xs = .ok m' ∧ m.extend (xs.map fun p => someBoth p.1 p.2) = .ok m') ∧
    ∃ os m', m.extendPairs xs = .ok m' ∧ m.run (xs.map fun p => .insert p.1 p.2) = .ok (os, m') := by
  have e : m.extend (xs.map fun p => someBoth p.1 p.2) = m.extendPairs xs := by
    clear h
    induction xs generalizing m with
    | nil => rfl
    | cons x xs ih =>
      simp only [List.map_cons, extend, extendPairs]
      congr 1; funext y; exact ih
  obtain ⟨os, m', e1, e2⟩ := C57_extend_is_inserts h (xs.map fun p => someBoth p.1 p.2)
  rw [e] at e1
  refine ⟨⟨m', e1, e.trans e1⟩, os, m', e1, ?_⟩
  rw [List.filterMap_map] at e2
  rw [← e2, ← List.filterMap_eq_map]; rfl

/-- C57 for `collect` / `from_iter`. -/
theorem C57_from_iter (hb : BuildHasher L R) (xs : List (OptionalPair L R)) :
    ∃ m' c', fromIter hb xs = .ok m' ∧ Shows m' c' ∧ ∀ p, p ∈ c' ↔
      p ≠ neither ∧ ∃ ys zs, xs = ys ++ p :: zs ∧ ∀ z ∈ zs, Disj z p := by
  obtain ⟨m', c', e, s, h⟩ := C57_extend (.new hb) (withHasher_repr hb).shows xs
  exact ⟨m', c', e, s, fun p => by rw [h p]; simp⟩

/-- C57 for `collect` / `from_iter` on pairs. -/
theorem C57_from_pairs (hb : BuildHasher L R) (xs : List (L × R)) :
    ∃ m' c', fromPairs hb xs = .ok m' ∧ Shows m' c' ∧ ∀ p, p ∈ c' ↔
      ∃ ys zs a b, xs = ys ++ (a, b) :: zs ∧ p = someBoth a b ∧
        ∀ z ∈ zs, (z.1 == a) = false ∧ (z.2 == b) = false := by
  obtain ⟨m', c', e, s, h⟩ := C57_from_iter hb (xs.map fun p => someBoth p.1 p.2)
  obtain ⟨⟨m'', e1, e2⟩, _⟩ := C57_extend_pairs (.new hb) xs
  rw [fromIter, e2] at e; cases e
  refine ⟨_, c', e1, s, fun p => ?_⟩
  rw [h p]
  constructor
  · rintro ⟨_, ys, zs, hx, hz⟩
    obtain ⟨ys', r, rfl, rfl, hr⟩ := List.map_eq_append_iff.1 hx
    obtain ⟨⟨a, b⟩, zs', rfl, rfl, rfl⟩ := List.map_eq_cons_iff.1 hr
    refine ⟨ys', zs', a, b, rfl, rfl, fun z hz' => ?_⟩
    have := hz _ (List.mem_map_of_mem hz')
    exact ⟨this.1 _ rfl, this.2 _ rfl⟩
  · rintro ⟨ys, zs, a, b, rfl, rfl, hz⟩
    refine ⟨by simp, ys.map fun p => someBoth p.1 p.2, zs.map fun p => someBoth p.1 p.2, by simp, fun z hz' => ?_⟩
    obtain ⟨y, hy, rfl⟩ := List.mem_map.1 hz'
    have := hz y hy
    constructor
    · intro l hl; cases hl; exact this.1
    · intro r hr; cases hr; exact this.2

example : ∃ m' c', demo.extend [someBoth 1 30, neither, someRight 20] = .ok m' ∧ Shows m' c' ∧ ∀ p, p ∈ c' ↔
    (p ≠ neither ∧ ∃ ys zs, [someBoth 1 30, neither, someRight 20] = ys ++ p :: zs ∧ ∀ z ∈ zs, Disj z p) ∨
    (p ∈ [someRight 30, someLeft 3, someBoth 2 20, someBoth 1 10] ∧
      ∀ z ∈ [someBoth 1 30, neither, someRight 20], Disj z p) :=
  C57_extend demo_reachable demo_shows _

/-! ### C58 -/

/-- C58: sizes and `clear`. -/
theorem C58_len (hc : Shows m c) :
    m.lenLeft = (c.filterMap leftOf).length ∧ m.lenRight = (c.filterMap rightOf).length ∧
    m.iterLeft.length = m.lenLeft ∧ m.iterRight.length = m.lenRight ∧
    (m.isEmpty = true ↔ c = []) ∧ (m.isEmpty = true ↔ m.lenLeft = 0 ∧ m.lenRight = 0) ∧ Shows m.clear [] := by
  refine ⟨hc.lenLeft, hc.lenRight, ?_, ?_, ?_, ?_, (clear_refines m).shows⟩
  · rw [hc.iterLeft.length_eq, hc.lenLeft]
  · rw [hc.iterRight.length_eq, hc.lenRight]
  · rw [hc.isEmpty, List.isEmpty_iff]
  · simp [isEmpty]

/-- C58: new maps are empty. -/
theorem C58_new (hb : BuildHasher L R) (n : Nat) :
    Shows (withHasher hb) ([] : List (OptionalPair L R)) ∧
    Shows (withCapacityAndHasher n hb) ([] : List (OptionalPair L R)) :=
  ⟨(withHasher_repr hb).shows, (withCapacity_repr n hb).shows⟩

/-- C58: capacity management is invisible. -/
theorem C58_capacity (h : Reachable m) (hc : Shows m c) (n : Nat) (a : Bool) :
    Shows (m.reserveLeft n) c ∧ Shows (m.reserveRight n) c ∧ Shows (m.shrinkToLeft n) c ∧
    Shows (m.shrinkToRight n) c ∧ Shows m.shrinkToFit c ∧
    ((m.tryReserveLeft n a).1 = a ∧ Shows (m.tryReserveLeft n a).2 c) ∧
    ((m.tryReserveRight n a).1 = a ∧ Shows (m.tryReserveRight n a).2 c) := by
  have h := h.repr_of_shows hc
  exact ⟨(reserveLeft_refines h n).shows, (reserveRight_refines h n).shows, (shrinkToLeft_refines h n).shows,
    (shrinkToRight_refines h n).shows, (shrinkToFit_refines h).shows,
    ⟨(tryReserveLeft_refines h n a).1, (tryReserveLeft_refines h n a).2.shows⟩,
    ⟨(tryReserveRight_refines h n a).1, (tryReserveRight_refines h n a).2.shows⟩⟩

example : demo.lenLeft = 3 ∧ demo.lenRight = 3 ∧ Shows demo.clear [] :=
  ⟨(C58_len demo_shows).1, (C58_len demo_shows).2.1, (C58_len demo_shows).2.2.2.2.2.2⟩
example : Shows (demo.shrinkToLeft 2) [someRight 30, someLeft 3, someBoth 2 20, someBoth 1 10] :=
  (C58_capacity demo_reachable demo_shows 2 true).2.2.1

/-! ### C59 -/

/-- C59 in full: two runs of the same history, under different hash builders and table implementations, that
both finish return the same results (visited items up to order).  False, see `C59_false`. -/
def C59_full : Prop :=
  ∀ (L R : Type) [BEq L] [BEq R] [EquivBEq L] [EquivBEq R] (I₁ I₂ : RawImpl) (_ : @LawfulRaw I₁) (_ : @LawfulRaw I₂)
    (hb₁ hb₂ : BuildHasher L R) (ops : List (Op L R)), (∀ op ∈ ops, OrderFree op) →
    ∀ os₁ m₁ os₂ m₂, @run I₁ L R _ _ (@withHasher I₁ L R _ _ hb₁) ops = .ok (os₁, m₁) →
      @run I₂ L R _ _ (@withHasher I₂ L R _ _ hb₂) ops = .ok (os₂, m₂) →
      os₁.length = os₂.length ∧ ∀ p ∈ os₁.zip os₂, SameOut p.1 p.2

omit [RawImpl] [LawfulRaw] in
/-- C59, what holds: a history that is safe for both hash builders returns the same results, call by call.
Missing: histories with an `unpair` of non-partners whose hashes collide crosswise with those of their partners. -/
theorem C59_hash_independent_partial (I₁ I₂ : RawImpl) (hI₁ : @LawfulRaw I₁) (hI₂ : @LawfulRaw I₂)
    (hb₁ hb₂ : BuildHasher L R) (ops : List (Op L R)) (hs₁ : SafeRun hb₁ [] ops) (hs₂ : SafeRun hb₂ [] ops)
    (ho : ∀ op ∈ ops, OrderFree op) :
    ∃ os₁ m₁ os₂ m₂, @run I₁ L R _ _ (@withHasher I₁ L R _ _ hb₁) ops = .ok (os₁, m₁) ∧
      @run I₂ L R _ _ (@withHasher I₂ L R _ _ hb₂) ops = .ok (os₂, m₂) ∧ os₁.length = os₂.length ∧
      (∀ p ∈ os₁.zip os₂, SameOut p.1 p.2) ∧ ∃ c, @Shows I₁ L R _ _ m₁ c ∧ @Shows I₂ L R _ _ m₂ c := by
  suffices key : ∀ (ops : List (Op L R)) (m₁ m₂ : PartialMap L R) (c : List (OptionalPair L R)), m₁.hb = hb₁ →
      m₂.hb = hb₂ → Repr m₁ c → Repr m₂ c → SafeRun hb₁ c ops → SafeRun hb₂ c ops → (∀ op ∈ ops, OrderFree op) →
      ∃ os₁ m₁' os₂ m₂', @run I₁ L R _ _ m₁ ops = .ok (os₁, m₁') ∧ @run I₂ L R _ _ m₂ ops = .ok (os₂, m₂') ∧
        os₁.length = os₂.length ∧ (∀ p ∈ os₁.zip os₂, SameOut p.1 p.2) ∧ ∃ c, Repr m₁' c ∧ Repr m₂' c by
    obtain ⟨os₁, m₁, os₂, m₂, e₁, e₂, hl, hz, c, r₁, r₂⟩ := key ops (@withHasher I₁ L R _ _ hb₁) (@withHasher I₂ L R _ _ hb₂) [] rfl rfl
      (@withHasher_repr I₁ hI₁ L R _ _ _ _ hb₁) (@withHasher_repr I₂ hI₂ L R _ _ _ _ hb₂) hs₁ hs₂ ho
    exact ⟨os₁, m₁, os₂, m₂, e₁, e₂, hl, hz, c, @Repr.shows I₁ hI₁ _ _ _ _ _ _ _ _ r₁, @Repr.shows I₂ hI₂ _ _ _ _ _ _ _ _ r₂⟩
  intro ops
  induction ops with
  | nil => intro m₁ m₂ c _ _ r₁ r₂ _ _ _; exact ⟨[], m₁, [], m₂, rfl, rfl, rfl, by simp, c, r₁, r₂⟩
  | cons op ops ih =>
    intro m₁ m₂ c h₁ h₂ r₁ r₂ hs₁ hs₂ ho
    obtain ⟨o₁, m₁', c₁, e₁, s₁, r₁', h₁'⟩ := @exec_simulates I₁ hI₁ _ _ _ _ _ _ _ _ r₁ op (h₁ ▸ hs₁.1)
    obtain ⟨o₂, m₂', c₂, e₂, s₂, r₂', h₂'⟩ := @exec_simulates I₂ hI₂ _ _ _ _ _ _ _ _ r₂ op (h₂ ▸ hs₂.1)
    obtain ⟨hso, hperm⟩ := step_det (ho op (by simp)) s₁ s₂
    obtain ⟨os₁, m₁'', os₂, m₂'', f₁, f₂, hl, hz, c', q₁, q₂⟩ :=
      ih m₁' m₂' c₁ (h₁'.trans h₁) (h₂'.trans h₂) r₁' (@Repr.perm I₂ hI₂ _ _ _ _ _ _ _ _ _ r₂' hperm.symm)
        (hs₁.2 _ _ s₁) (hs₂.2 _ _ s₁) (fun op h => ho op (by simp [h]))
    refine ⟨o₁ :: os₁, m₁'', o₂ :: os₂, m₂'', ?_, ?_, by simp [hl], ?_, c', q₁, q₂⟩
    · simp only [run, e₁, f₁, bind, Except.bind, pure, Except.pure]
    · simp only [run, e₂, f₂, bind, Except.bind, pure, Except.pure]
    · intro p hp
      rw [List.zip_cons_cons, List.mem_cons] at hp
      rcases hp with rfl | hp
      · exact hso
      · exact hz p hp

/-- a history to which it applies -/
example : let ops : List (Op Nat Nat) := [.insert 1 10, .insertLeft 2, .swapLeft 2 3, .removeLeft 1, .iterUnpaired]
    ∃ os₁ m₁ os₂ m₂, @run tidyRaw Nat Nat _ _ (@withHasher tidyRaw Nat Nat _ _ spreadHash) ops = .ok (os₁, m₁) ∧
    @run messyRaw Nat Nat _ _ (@withHasher messyRaw Nat Nat _ _ constHash) ops = .ok (os₂, m₂) ∧
    os₁.length = os₂.length ∧ (∀ p ∈ os₁.zip os₂, SameOut p.1 p.2) ∧
    ∃ c, @Shows tidyRaw Nat Nat _ _ m₁ c ∧ @Shows messyRaw Nat Nat _ _ m₂ c :=
  C59_hash_independent_partial tidyRaw messyRaw tidyRaw_lawful messyRaw_lawful spreadHash constHash
    [.insert 1 10, .insertLeft 2, .swapLeft 2 3, .removeLeft 1, .iterUnpaired] (by simp [SafeRun, Safe])
    (by simp [SafeRun, Safe]) (by simp [OrderFree])

omit [RawImpl] [LawfulRaw] [BEq L] [BEq R] [EquivBEq L] [EquivBEq R] in
/-- C59 in full is false: after inserting (1, 10) and (2, 20), `unpair(1, 20)` returns `false`, unless the hashes
of 10 and 20, and those of 1 and 2, are equal. -/
theorem C59_false : ¬ C59_full := by
  intro h
  let ops : List (Op Nat Nat) := [.insert 1 10, .insert 2 20, .unpair 1 20]
  have key : ∀ hb b, (match @run tidyRaw Nat Nat _ _ (@withHasher tidyRaw Nat Nat _ _ hb) ops with
        | .ok ([_, _, .bool x], _) => some x
        | _ => none) = some b →
      ∃ o₁ o₂ m, @run tidyRaw Nat Nat _ _ (@withHasher tidyRaw Nat Nat _ _ hb) ops = .ok ([o₁, o₂, .bool b], m) := by
    intro hb b hx
    split at hx
    · rename_i o₁ o₂ x m e
      cases hx; exact ⟨o₁, o₂, m, e⟩
    · cases hx
  obtain ⟨o₁, o₂, m, e⟩ := key spreadHash false (by decide)
  obtain ⟨o₁', o₂', m', e'⟩ := key constHash true (by decide)
  have := (h Nat Nat tidyRaw tidyRaw tidyRaw_lawful tidyRaw_lawful spreadHash constHash ops (by simp [ops, OrderFree])
    _ _ _ _ e e').2 (.bool false, .bool true) (by simp)
  simp [SameOut] at this

/-! ### C32 for `PartialCycleMap` -/

/-- C32: the id counter of any `PartialCycleMap` grows by at most one per insertion, forced pairing or `unpair`. -/
theorem C32_counter (ops : List (Op L R)) (os : List (Out L R)) (m m' : PartialMap L R) (h : m.run ops = .ok (os, m')) :
    m'.counter ≤ m.counter + (ops.map fun op => match op with
      | .insert .. | .insertLeft .. | .insertRight .. => 1
      | .pairForced .. | .pairForcedRemove .. | .unpair .. => 1
      | .swapLeftOrInsert .. | .swapRightOrInsert .. => 1
      | .extendPairs xs => xs.length
      | .extend xs => xs.length
      | _ => 0).sum := by
  refine Nat.le_trans (run_counter h) (Nat.le_of_eq ?_)
  congr 2

/-- C32: ids in use are below the counter, and items on the same side have distinct ids. -/
theorem C32_ids (h : Reachable m) :
    (∀ e ∈ m.left.toList, e.id < m.counter) ∧ (∀ e ∈ m.right.toList, e.id < m.counter) ∧
    (m.left.toList.map (·.id)).Nodup ∧ (m.right.toList.map (·.id)).Nodup := by
  obtain ⟨c, ps, hr, hp⟩ := h.repr
  have idL : ∀ {p : Rec L R} {x}, toL m.hb p = some x → x.2.id = p.id := by
    intro p x hx
    unfold toL at hx
    split at hx <;> cases hx <;> rfl
  have idR : ∀ {p : Rec L R} {x}, toR m.hb p = some x → x.2.id = p.id := by
    intro p x hx
    unfold toR at hx
    split at hx <;> cases hx <;> rfl
  refine ⟨?_, ?_, ?_, ?_⟩
  · intro e he
    obtain ⟨x, hx, rfl⟩ := List.mem_map.1 he
    obtain ⟨p, hp, he⟩ := List.mem_filterMap.1 (hr.left.mem_iff.1 hx)
    rw [idL he]; exact hr.bound p hp
  · intro e he
    obtain ⟨x, hx, rfl⟩ := List.mem_map.1 he
    obtain ⟨p, hp, he⟩ := List.mem_filterMap.1 (hr.right.mem_iff.1 hx)
    rw [idR he]; exact hr.bound p hp
  · rw [RawTable.toList, List.map_map, (hr.left.map _).nodup_iff, List.Nodup, List.pairwise_map, tabL,
      List.pairwise_filterMap]
    refine hr.apart.imp fun {p q} h x hx y hy => ?_
    simp only [Function.comp]
    rw [idL hx, idL hy]; exact h.1
  · rw [RawTable.toList, List.map_map, (hr.right.map _).nodup_iff, List.Nodup, List.pairwise_map, tabR,
      List.pairwise_filterMap]
    refine hr.apart.imp fun {p q} h x hx y hy => ?_
    simp only [Function.comp]
    rw [idR hx, idR hy]; exact h.1

example : (demo.left.toList.map (·.id)).Nodup := (C32_ids demo_reachable).2.2.1

/-! ### C81 -/

/-- C81: a clone (made with any lawful `Clone` of the items) shows the cloned entries and compares equal to the
original, both ways. -/
theorem C81_clone_eq (h : Reachable m) (hc : Shows m c) (cl : L → L) (cr : R → R) (hl : ∀ x, (cl x == x) = true)
    (hr : ∀ x, (cr x == x) = true) :
    Shows (m.clone cl cr) (c.map fun e => match e with
      | someLeft l => someLeft (cl l)
      | someRight r => someRight (cr r)
      | someBoth l r => someBoth (cl l) (cr r)
      | neither => neither) ∧
    m.eq (m.clone cl cr) = .ok true ∧ (m.clone cl cr).eq m = .ok true := by
  have hm := h.repr_of_shows hc
  have hk := clone_refines hm hl hr
  have hsame : ∀ e : OptionalPair L R, Same (mapEntry cl cr e) e := by
    intro e; cases e <;> simp [mapEntry, Same, hl, hr]
  have s1 : ∀ e ∈ c, ∃ e' ∈ c.map (mapEntry cl cr), Same e e' :=
    fun e he => ⟨_, List.mem_map_of_mem he, (hsame e).symm⟩
  have s2 : ∀ e ∈ c.map (mapEntry cl cr), ∃ e' ∈ c, Same e e' := by
    intro e he
    obtain ⟨e', he', rfl⟩ := List.mem_map.1 he
    exact ⟨e', he', hsame e'⟩
  have hreach : Reachable (m.clone cl cr) := .step (op := .clone cl cr) (o := .unit) h (by simp) (by simp)
    (by intro a b hx; cases hx; exact ⟨hl, hr⟩) rfl
  refine ⟨?_, (C56_eq_partial h hc hreach hk.shows).1 s1 s2, (C56_eq_partial hreach hk.shows h hc).1 s2 s1⟩
  have : c.map (mapEntry cl cr) = c.map fun e => match e with
      | someLeft l => someLeft (cl l)
      | someRight r => someRight (cr r)
      | someBoth l r => someBoth (cl l) (cr r)
      | neither => neither := by
    congr 1; funext e; cases e <;> rfl
  rw [← this]; exact hk.shows

omit [LawfulRaw] [EquivBEq L] [EquivBEq R] in
/-- C81: when cloning an item gives an identical item, every history returns the same on the clone. -/
theorem C81_clone_history (m : PartialMap L R) (ops : List (Op L R)) :
    (m.clone (fun x => x) (fun x => x)).run ops = m.run ops := by
  have : m.clone (fun x => x) (fun x => x) = m := by
    cases m
    simp only [clone, RawTable.clone, MappingPair.clone]
    congr <;> exact List.map_id _
  rw [this]

example : demo.eq (demo.clone (· + 0) (· + 0)) = .ok true :=
  (C81_clone_eq demo_reachable demo_shows (· + 0) (· + 0) (by simp) (by simp)).2.1

/-! ### C82 -/

/-- C82: lookup by another type `Q` that hashes like, and can be compared with, the stored items: the partner
of the stored item that `q` matches, or `None`. -/
theorem C82_borrowed_lookup {Q : Type} (h : Reachable m) (hc : Shows m c) (q : Q) (hash : Q → UInt64) :
    (∀ cmp : Q → L → Bool, (∀ a, cmp q a = true → hash q = m.hb.hl a) →
      (∀ a b, cmp q a = true → cmp q b = true → (a == b) = true) →
      m.getRightBy (hash q) (cmp q) = (c.find? fun e => (leftOf e).any (cmp q)).bind rightOf) ∧
    (∀ cmp : Q → R → Bool, (∀ a, cmp q a = true → hash q = m.hb.hr a) →
      (∀ a b, cmp q a = true → cmp q b = true → (a == b) = true) →
      m.getLeftBy (hash q) (cmp q) = (c.find? fun e => (rightOf e).any (cmp q)).bind leftOf) := by
  obtain ⟨ps, hr, hp⟩ := h.repr_of_shows hc
  constructor
  · intro cmp hh hu
    cases hf : c.find? (fun e => (leftOf e).any (cmp q)) with
    | none =>
      rw [List.find?_eq_none] at hf
      refine getRightBy_none hr (fun p hm a ha => ?_) _
      have := hf p.e (hp.mem_iff.1 (List.mem_map_of_mem hm))
      simpa [ha] using this
    | some e =>
      have hm := List.mem_of_find?_eq_some hf
      have hx := List.find?_some hf
      obtain ⟨p, hm', rfl⟩ := List.mem_map.1 (hp.mem_iff.2 hm)
      obtain ⟨a, ha, hxa⟩ : ∃ a, leftOf p.e = some a ∧ cmp q a = true := by
        cases hl : leftOf p.e with
        | none => simp [hl] at hx
        | some a => exact ⟨a, rfl, by simpa [hl] using hx⟩
      obtain ⟨qs, hqs⟩ := perm_cons_of_mem hm'
      have hr' := hr.perm hqs
      refine getRightBy_some hr' ha (hh _ hxa) hxa fun y hy b hb => ?_
      cases hcy : cmp q b with
      | false => rfl
      | true =>
        have := (hr'.tailApart y hy).2.1 a ha
        rw [hasL_eq hb, hu _ _ hxa hcy] at this; cases this
  · intro cmp hh hu
    cases hf : c.find? (fun e => (rightOf e).any (cmp q)) with
    | none =>
      rw [List.find?_eq_none] at hf
      refine getLeftBy_none hr (fun p hm a ha => ?_) _
      have := hf p.e (hp.mem_iff.1 (List.mem_map_of_mem hm))
      simpa [ha] using this
    | some e =>
      have hm := List.mem_of_find?_eq_some hf
      have hx := List.find?_some hf
      obtain ⟨p, hm', rfl⟩ := List.mem_map.1 (hp.mem_iff.2 hm)
      obtain ⟨a, ha, hxa⟩ : ∃ a, rightOf p.e = some a ∧ cmp q a = true := by
        cases hl : rightOf p.e with
        | none => simp [hl] at hx
        | some a => exact ⟨a, rfl, by simpa [hl] using hx⟩
      obtain ⟨qs, hqs⟩ := perm_cons_of_mem hm'
      have hr' := hr.perm hqs
      refine getLeftBy_some hr' ha (hh _ hxa) hxa fun y hy b hb => ?_
      cases hcy : cmp q b with
      | false => rfl
      | true =>
        have := (hr'.tailApart y hy).2.2 a ha
        rw [hasR_eq hb, hu _ _ hxa hcy] at this; cases this

/-- looking up by a `Fin 5` -/
example : demo.getRightBy 0 (fun x => (2 : Fin 5).val == x) = some 20 :=
  (C82_borrowed_lookup demo_reachable demo_shows (2 : Fin 5) (fun _ => 0)).1 (fun q x => q.val == x)
    (fun a _ => by rw [demo_hb]; rfl)
    (fun a b ha hb => beq_iff_eq.2 ((eq_of_beq ha).symm.trans (eq_of_beq hb)))

end Verif.PartialMap
