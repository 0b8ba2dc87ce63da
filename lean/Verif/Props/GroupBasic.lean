import Verif.Props.GroupDemo
/-! Properties C60, C61, C63–C65, C68–C71, C78 of `GroupMap`. -/
set_option linter.unusedSectionVars false
set_option linter.unusedSimpArgs false
namespace Verif.GroupMap
open GroupSpec Demo

variable [RawImpl] [LawfulRaw] {L R : Type} [BEq L] [BEq R] [EquivBEq L] [EquivBEq R]
variable {m : GroupMap L R} {c : Contents L R}

/-! ### C60 -/

/-- C60: for every history of (safe) calls on a new map, whatever the hash builder and the table
implementation, no call panics, the results are those of the two lists, and at the end every observer
describes the map as those lists, in which no item occurs twice. -/
theorem C60_history (hb : BuildHasher L R) (ops : List (Op L R)) (hs : SafeRun GroupSpec.empty ops) :
    ∃ os m' c', (withHasher hb).run ops = .ok (os, m') ∧ Steps GroupSpec.empty ops os c' ∧ Shows m' c' := by
  obtain ⟨os, m', c', e, s, h, _⟩ := run_simulates (withHasher_repr hb) hs
  exact ⟨os, m', c', e, s, h.shows⟩

/-- C60 for `with_capacity`. -/
theorem C60_history_with_capacity (n : Nat) (hb : BuildHasher L R) (ops : List (Op L R))
    (hs : SafeRun GroupSpec.empty ops) :
    ∃ os m' c', (withCapacityAndHasher n hb).run ops = .ok (os, m') ∧ Steps GroupSpec.empty ops os c' ∧
      Shows m' c' := by
  obtain ⟨os, m', c', e, s, h, _⟩ := run_simulates (withCapacity_repr n hb) hs
  exact ⟨os, m', c', e, s, h.shows⟩

/-- C60, starting from any reachable map. -/
theorem C60_history_from (h : Reachable m) (hc : Shows m c) (ops : List (Op L R)) (hs : SafeRun c ops) :
    ∃ os m' c', m.run ops = .ok (os, m') ∧ Steps c ops os c' ∧ Shows m' c' := by
  obtain ⟨os, m', c', e, s, h, _⟩ := run_simulates (h.repr_of_shows hc) hs
  exact ⟨os, m', c', e, s, h.shows⟩

/-- C60: every reachable map is a list of right items and a list of pairs to all observers. -/
theorem C60_reachable_shows (h : Reachable m) : ∃ c, Shows m c := by
  obtain ⟨c, hc⟩ := h.repr
  exact ⟨c, hc.shows⟩

/-- a history with moves between groups, removal of a group, a swap of a lone right item and stateful closures -/
example : SafeRun (GroupSpec.empty : Contents Nat Nat)
    [.insert 1 10, .insert 2 10, .insertRight 20, .pair 2 20, .swapRight 30 40, .insertLeft 3 20, .removeLeft 1,
     .swapRightRemove 10 50, .removeRight 20, .insertRemove 1 40, .retainUnpaired Nat (fun s _ => (s % 2 == 0, s + 1)) 0,
     .iter, .clear] := by
  refine ⟨rfl, ?_⟩; rintro _ _ ⟨rfl, rfl⟩
  refine ⟨rfl, ?_⟩; rintro _ _ ⟨rfl, rfl⟩
  refine ⟨trivial, ?_⟩; rintro _ _ ⟨_, _, rfl, rfl⟩
  refine ⟨trivial, ?_⟩; rintro _ _ ⟨rfl, rfl⟩
  refine ⟨.inl rfl, ?_⟩; rintro _ _ ⟨rfl, rfl⟩
  refine ⟨trivial, ?_⟩; rintro _ _ ⟨rfl, rfl⟩
  refine ⟨trivial, ?_⟩; rintro _ _ ⟨rfl, rfl⟩
  refine ⟨.inr ⟨rfl, .inl rfl⟩, ?_⟩
  simp [SafeRun, Safe]

example : ∃ os m' c', demo.run [.pair 1 20, .removeRight 10, .iter] = .ok (os, m') ∧
    Steps demoC [.pair 1 20, .removeRight 10, .iter] os c' ∧ Shows m' c' :=
  C60_history_from demo_reachable demo_shows _ (by simp [SafeRun, Safe])

/-! ### C61 -/

omit [EquivBEq R] in
theorem hasPair_iff (hs : c.Sound) {l : L} {r : R} :
    hasPair c l r = true ↔ ∃ p, findL c l = some p ∧ (r == p.2) = true := by
  constructor
  · intro h
    rw [hasPair, List.any_eq_true] at h
    obtain ⟨p, hp, h⟩ := h
    rw [Bool.and_eq_true] at h
    refine ⟨p, ?_, h.2⟩
    obtain ⟨d, hd⟩ := perm_cons_of_mem hp
    have hw : (p :: d).Pairwise fun p q : L × R => (p.1 == q.1) = false :=
      (hd.pairwise_iff fun {a b} h => by rw [BEq.comm]; exact h).1 hs.lefts
    refine find?_eq_some_of_perm hd h.1 fun q hq => ?_
    rw [Bool.eq_false_iff]
    intro hq'
    have := (List.pairwise_cons.1 hw).1 q hq
    rw [BEq.trans (BEq.symm h.1) hq'] at this
    exact absurd this (by simp)
  · rintro ⟨p, hp, h⟩
    rw [hasPair, List.any_eq_true]
    exact ⟨p, List.mem_of_find?_eq_some hp, by rw [Bool.and_eq_true]; exact ⟨List.find?_some (p := fun q : L × R => l == q.1) hp, h⟩⟩

omit [EquivBEq L] in
theorem mem_group {r : R} {l : L} : l ∈ group c r ↔ ∃ b, (l, b) ∈ c.pairs ∧ (r == b) = true := by
  simp [group]

/-- C61: in every reachable map, `get_right(l)` is `r` exactly if `l` is among `get_left_iter(r)`, exactly if
`are_paired(l, r)`; every left item is in exactly one group and occurs in it once; a right item is reported paired
exactly if its group has an item; the right item of every left item is in the map. -/
theorem C61_coherent (h : Reachable m) :
    (∀ l, m.containsLeft l = (m.getRight l).isSome) ∧
    (∀ l r, m.arePaired l r = true ↔ ∃ b, m.getRight l = some b ∧ (r == b) = true) ∧
    (∀ r, ∃ o, m.getLeftList r = .ok o ∧ o.isSome = m.containsRight r) ∧
    (∀ l r, m.arePaired l r = true ↔ ∃ g a, m.getLeftList r = .ok (some g) ∧ a ∈ g ∧ (l == a) = true) ∧
    (∀ r g, m.getLeftList r = .ok (some g) → g.Pairwise fun a b => (a == b) = false) ∧
    (∀ l r r', m.arePaired l r = true → m.arePaired l r' = true → (r == r') = true) ∧
    (∀ l r, m.arePaired l r = true → m.containsLeft l = true ∧ m.containsRight r = true) ∧
    (∀ r, m.isRightPaired r = true ↔ ∃ l, m.arePaired l r = true) := by
  obtain ⟨c, hc⟩ := h.repr
  have s := hc.shows
  have pr : ∀ l r, m.arePaired l r = true ↔ ∃ r', m.getRight l = some r' ∧ (r == r') = true := by
    intro l r
    rw [s.arePaired, s.getRight, hasPair_iff s.sound]
    cases findL c l <;> simp
  have mem : ∀ l r, m.arePaired l r = true → m.containsLeft l = true ∧ m.containsRight r = true := by
    intro l r e
    rw [s.arePaired, hasPair, List.any_eq_true] at e
    obtain ⟨x, hx, h⟩ := e
    rw [Bool.and_eq_true] at h
    rw [s.containsLeft, s.containsRight, List.any_eq_true, List.any_eq_true]
    exact ⟨⟨x, hx, h.1⟩, ⟨x.2, s.sound.owned x hx, h.2⟩⟩
  refine ⟨?_, pr, ?_, ?_, ?_, ?_, mem, ?_⟩
  · intro l
    rw [s.containsLeft, s.getRight, findL, Option.isSome_map, List.isSome_find?]
  · intro r
    obtain ⟨ls, e, _⟩ := s.getLeft r
    exact ⟨_, e, by rw [s.containsRight, Option.isSome_map, findR, List.isSome_find?]⟩
  · intro l r
    obtain ⟨ls, e, hp⟩ := s.getLeft r
    constructor
    · intro hpair
      have hr := (mem l r hpair).2
      rw [s.containsRight, ← List.isSome_find?, Option.isSome_iff_exists] at hr
      obtain ⟨b, hb⟩ := hr
      rw [findR, hb] at e
      rw [s.arePaired, hasPair, List.any_eq_true] at hpair
      obtain ⟨x, hx, h⟩ := hpair
      rw [Bool.and_eq_true] at h
      exact ⟨ls, x.1, e, hp.mem_iff.2 (mem_group.2 ⟨x.2, hx, h.2⟩), h.1⟩
    · rintro ⟨g, a, e', ha, hl⟩
      rw [e'] at e
      cases hf : findR c r with
      | none => rw [hf] at e; simp at e
      | some b =>
        rw [hf] at e
        simp only [Option.map_some, Except.ok.injEq, Option.some.injEq] at e
        subst e
        obtain ⟨b, hb, hr⟩ := mem_group.1 (hp.mem_iff.1 ha)
        rw [s.arePaired, hasPair, List.any_eq_true]
        exact ⟨_, hb, by rw [Bool.and_eq_true]; exact ⟨hl, hr⟩⟩
  · intro r g e'
    obtain ⟨ls, e, hp⟩ := s.getLeft r
    rw [e'] at e
    cases hf : findR c r with
    | none => rw [hf] at e; simp at e
    | some b =>
      rw [hf] at e
      simp only [Option.map_some, Except.ok.injEq, Option.some.injEq] at e
      subst e
      refine (hp.pairwise_iff fun {a b} h => by rw [BEq.comm]; exact h).2 ?_
      rw [group, List.pairwise_map]
      exact s.sound.lefts.filter _
  · intro l r r' e e'
    obtain ⟨x, hx, h1⟩ := (pr l r).1 e
    obtain ⟨y, hy, h2⟩ := (pr l r').1 e'
    rw [hx] at hy; cases hy
    exact BEq.trans h1 (BEq.symm h2)
  · intro r
    rw [s.isRightPaired, hasGroup, List.any_eq_true]
    constructor
    · rintro ⟨x, hx, h⟩
      exact ⟨x.1, by rw [s.arePaired, hasPair, List.any_eq_true]; exact ⟨x, hx, by simp [h]⟩⟩
    · rintro ⟨l, e⟩
      rw [s.arePaired, hasPair, List.any_eq_true] at e
      obtain ⟨x, hx, h⟩ := e
      rw [Bool.and_eq_true] at h
      exact ⟨x, hx, h.2⟩

example : demo.getRight 2 = some 10 ∧ demo.arePaired 2 10 = true ∧ demo.arePaired 2 20 = false ∧
    demo.isRightPaired 30 = false ∧ ∃ g a, demo.getLeftList 10 = .ok (some g) ∧ a ∈ g ∧ (2 == a) = true :=
  have e : demo.arePaired 2 10 = true := by rw [demo_shows.arePaired]; rfl
  ⟨by rw [demo_shows.getRight]; rfl, e, by rw [demo_shows.arePaired]; rfl, by rw [demo_shows.isRightPaired]; rfl,
   ((C61_coherent demo_reachable).2.2.2.1 2 10).1 e⟩

/-! ### C63–C65: insertions -/

/-- C63: `insert_remove(l, r)` returns the old left item, and the old right item with those of its left items that
are not `l`; afterwards the map has the pair `(l, r)` and what was not returned. -/
theorem C63_insert_remove (h : Reachable m) (hc : Shows m c) (l : L) (r : R) :
    ∃ o m', m.insertRemove l r = .ok (((c.pairs.find? (l == ·.1)).map (·.1), o), m') ∧
      SameEntry o ((c.rights.find? (r == ·)).map fun b =>
        ((c.pairs.filter fun p => r == p.2 && !(l == p.1)).map (·.1), b)) ∧
      Shows m' ⟨r :: c.rights.filter (fun b => !(r == b)),
        (l, r) :: c.pairs.filter fun p => !(l == p.1) && !(r == p.2)⟩ := by
  have h := h.repr_of_shows hc
  obtain ⟨o, m', e, ho, h', _⟩ := insertRemove_refines h l r
  refine ⟨o, m', e, ?_, ?_⟩
  · simpa only [GroupSpec.insertRemove, entryR, eraseL, findR, group, List.filter_filter] using ho
  · have := h'.shows
    simp only [GroupSpec.insertRemove, eraseL, eraseR, List.filter_filter] at this
    simpa only [Bool.and_comm] using this

/-- the left item 1 moves; the right item 10 goes with its other left item 2 -/
example : ∃ o m', demo.insertRemove 1 10 = .ok ((some 1, o), m') ∧ SameEntry o (some ([2], 10)) ∧
    Shows m' ⟨[10, 30, 20], [(1, 10), (3, 20)]⟩ := C63_insert_remove demo_reachable demo_shows 1 10

/-- C64: `insert_left(l, r)` with `r` absent returns `None` and changes nothing. -/
theorem C64_insert_left_absent (h : Reachable m) (hc : Shows m c) (l : L) (r : R)
    (hr : m.containsRight r = false) :
    ∃ m', m.insertLeft l r = .ok (none, m') ∧ Shows m' c := by
  have h := h.repr_of_shows hc
  obtain ⟨m', e, h', _⟩ := insertLeft_refines h l r
  have : findR c r = none := by
    rw [hc.containsRight, ← List.isSome_find?, Option.isSome_eq_false_iff, Option.isNone_iff_eq_none] at hr
    exact hr
  simp only [GroupSpec.insertLeft, this] at e h'
  exact ⟨m', e, h'.shows⟩

/-- C64: `insert_left(l, r)` with `r` present (stored as `b`) returns the old left item, and puts `l` in the group
of `b`, in its place. -/
theorem C64_insert_left (h : Reachable m) (hc : Shows m c) (l : L) (r b : R)
    (hr : c.rights.find? (r == ·) = some b) :
    ∃ m', m.insertLeft l r = .ok ((c.pairs.find? (l == ·.1)).map (·.1), m') ∧
      Shows m' ⟨c.rights, (l, b) :: c.pairs.filter fun p => !(l == p.1)⟩ := by
  have h := h.repr_of_shows hc
  obtain ⟨m', e, h', _⟩ := insertLeft_refines h l r
  have : findR c r = some b := hr
  simp only [GroupSpec.insertLeft, this] at e h'
  exact ⟨m', e, h'.shows⟩

example : ∃ m', demo.insertLeft 1 20 = .ok (some 1, m') ∧ Shows m' ⟨[30, 20, 10], [(1, 20), (3, 20), (2, 10)]⟩ :=
  C64_insert_left demo_reachable demo_shows 1 20 20 rfl

example : ∃ m', demo.insertLeft 1 40 = .ok (none, m') ∧ Shows m' demoC :=
  C64_insert_left_absent demo_reachable demo_shows 1 40 (by rw [demo_shows.containsRight]; rfl)

/-- C65: `insert_right(r)` returns the old right item with all its left items; afterwards the map has `r` without
left items, and what was not returned. -/
theorem C65_insert_right (h : Reachable m) (hc : Shows m c) (r : R) :
    ∃ o m', m.insertRight r = .ok (o, m') ∧
      SameEntry o ((c.rights.find? (r == ·)).map fun b => ((c.pairs.filter (r == ·.2)).map (·.1), b)) ∧
      Shows m' ⟨r :: c.rights.filter (fun b => !(r == b)), c.pairs.filter fun p => !(r == p.2)⟩ := by
  have h := h.repr_of_shows hc
  obtain ⟨o, m', e, ho, h', _⟩ := insertRight_refines h r
  exact ⟨o, m', e, ho, h'.shows⟩

example : ∃ o m', demo.insertRight 10 = .ok (o, m') ∧ SameEntry o (some ([2, 1], 10)) ∧
    Shows m' ⟨[10, 30, 20], [(3, 20)]⟩ := C65_insert_right demo_reachable demo_shows 10

/-! ### C68: `pair` -/

/-- C68: `pair(l, r)` returns whether both items are there. -/
theorem C68_pair_result (h : Reachable m) (l : L) (r : R) :
    ∃ m', m.pair l r = .ok (m.containsLeft l && m.containsRight r, m') := by
  obtain ⟨c, h⟩ := h.repr
  obtain ⟨m', e, _⟩ := pair_refines h l r
  refine ⟨m', ?_⟩
  rw [e, containsLeft_refines h, containsRight_refines h, ← List.isSome_find?, ← List.isSome_find?]
  simp only [GroupSpec.pair, findL, findR]
  cases c.pairs.find? (l == ·.1) <;> cases c.rights.find? (r == ·) <;> rfl

/-- C68: if both are there (stored as `a`, in the group of `b'`, and as `b`), `a` moves to the group of `b`. -/
theorem C68_pair (h : Reachable m) (hc : Shows m c) (l a : L) (r b b' : R)
    (hl : c.pairs.find? (l == ·.1) = some (a, b')) (hr : c.rights.find? (r == ·) = some b) :
    ∃ m', m.pair l r = .ok (true, m') ∧ Shows m' ⟨c.rights, (a, b) :: c.pairs.filter fun p => !(l == p.1)⟩ := by
  have h := h.repr_of_shows hc
  obtain ⟨m', e, h', _⟩ := pair_refines h l r
  have e1 : findL c l = some (a, b') := hl
  have e2 : findR c r = some b := hr
  simp only [GroupSpec.pair, e1, e2] at e h'
  exact ⟨m', e, h'.shows⟩

/-- C68: if one of them is missing, nothing changes. -/
theorem C68_pair_missing (h : Reachable m) (hc : Shows m c) (l : L) (r : R)
    (hm : m.containsLeft l = false ∨ m.containsRight r = false) :
    ∃ m', m.pair l r = .ok (false, m') ∧ Shows m' c := by
  have h := h.repr_of_shows hc
  obtain ⟨m', e, h', _⟩ := pair_refines h l r
  rw [hc.containsLeft, hc.containsRight, ← List.isSome_find?, ← List.isSome_find?] at hm
  have : GroupSpec.pair c l r = (false, c) := by
    simp only [GroupSpec.pair, findL, findR]
    cases e1 : c.pairs.find? (l == ·.1) <;> cases e2 : c.rights.find? (r == ·) <;> simp_all
  rw [this] at e h'
  exact ⟨m', e, h'.shows⟩

/-- C68: pairing what is paired already changes nothing. -/
theorem C68_pair_again (h : Reachable m) (hc : Shows m c) (l : L) (r : R) (hp : m.arePaired l r = true) :
    ∃ m', m.pair l r = .ok (true, m') ∧ Shows m' c := by
  have h' := h.repr_of_shows hc
  rw [hc.arePaired, hasPair_iff hc.sound] at hp
  obtain ⟨p, hp, hr⟩ := hp
  have hm := List.mem_of_find?_eq_some hp
  have hb : findR c r = some p.2 := by
    obtain ⟨d, hd⟩ := perm_cons_of_mem (hc.sound.owned p hm)
    have hw : (p.2 :: d).Pairwise fun a b : R => (a == b) = false :=
      (hd.pairwise_iff fun {a b} h => by rw [BEq.comm]; exact h).1 hc.sound.rights
    refine find?_eq_some_of_perm hd hr fun q hq => ?_
    rw [Bool.eq_false_iff]
    intro hq'
    have := (List.pairwise_cons.1 hw).1 q hq
    rw [BEq.trans (BEq.symm hr) hq'] at this
    exact absurd this (by simp)
  obtain ⟨m', e, h', _⟩ := pair_refines h' l r
  simp only [GroupSpec.pair, hp, hb] at e h'
  refine ⟨m', e, ?_⟩
  have hperm : ((p.1, p.2) :: c.pairs.filter fun q => !(l == q.1)).Perm c.pairs := by
    obtain ⟨d, hd⟩ := perm_cons_of_mem hm
    have hw : (p :: d).Pairwise fun p q : L × R => (p.1 == q.1) = false :=
      (hd.pairwise_iff fun {a b} h => by rw [BEq.comm]; exact h).1 hc.sound.lefts
    refine .trans (.cons _ ?_) hd.symm
    refine (hd.filter _).trans ?_
    have hl : (l == p.1) = true := List.find?_some (p := fun q : L × R => l == q.1) hp
    rw [List.filter_cons_of_neg (by simp [hl]), filter_eq_self_of]
    intro q hq
    have := (List.pairwise_cons.1 hw).1 q hq
    rw [Bool.eq_false_iff]
    intro hq'
    rw [BEq.trans (BEq.symm hl) hq'] at this
    exact absurd this (by simp)
  exact (h'.same (d := c) ⟨.refl _, hperm⟩).shows

example : ∃ m', demo.pair 1 20 = .ok (true, m') ∧ Shows m' ⟨[30, 20, 10], [(1, 20), (3, 20), (2, 10)]⟩ :=
  C68_pair demo_reachable demo_shows 1 1 20 20 10 rfl rfl
example : ∃ m', demo.pair 1 10 = .ok (true, m') ∧ Shows m' demoC :=
  C68_pair_again demo_reachable demo_shows 1 10 (by rw [demo_shows.arePaired]; rfl)
example : ∃ m', demo.pair 1 40 = .ok (false, m') ∧ Shows m' demoC :=
  C68_pair_missing demo_reachable demo_shows 1 40 (.inr (by rw [demo_shows.containsRight]; rfl))

/-! ### C69, C70: removals -/

/-- C69: `remove_left(l)` returns the stored left item equal to `l`, and removes just that. -/
theorem C69_remove_left (h : Reachable m) (hc : Shows m c) (l : L) :
    ∃ m', m.removeLeft l = .ok ((c.pairs.find? (l == ·.1)).map (·.1), m') ∧
      Shows m' ⟨c.rights, c.pairs.filter fun p => !(l == p.1)⟩ := by
  have h := h.repr_of_shows hc
  obtain ⟨m', e, h', _⟩ := removeLeft_refines h l
  exact ⟨m', e, h'.shows⟩

example : ∃ m', demo.removeLeft 3 = .ok (some 3, m') ∧ Shows m' ⟨[30, 20, 10], [(2, 10), (1, 10)]⟩ :=
  C69_remove_left demo_reachable demo_shows 3
example : ∃ m', demo.removeLeft 9 = .ok (none, m') ∧ Shows m' demoC := C69_remove_left demo_reachable demo_shows 9

/-- C70: `remove_right(r)` returns the stored right item equal to `r` with exactly its left items, and removes
just those. -/
theorem C70_remove_right (h : Reachable m) (hc : Shows m c) (r : R) :
    ∃ o m', m.removeRight r = .ok (o, m') ∧
      SameEntry o ((c.rights.find? (r == ·)).map fun b => ((c.pairs.filter (r == ·.2)).map (·.1), b)) ∧
      Shows m' ⟨c.rights.filter (fun b => !(r == b)), c.pairs.filter fun p => !(r == p.2)⟩ := by
  have h := h.repr_of_shows hc
  obtain ⟨o, m', e, ho, h', _⟩ := removeRight_refines h r
  exact ⟨o, m', e, ho, h'.shows⟩

/-- C70: `remove(l, r)` of two paired items does what `remove_right(r)` does. -/
theorem C70_remove (h : Reachable m) (hc : Shows m c) (l : L) (r : R) (hp : m.arePaired l r = true) :
    ∃ o m', m.remove l r = .ok (o, m') ∧
      SameEntry o ((c.rights.find? (r == ·)).map fun b => ((c.pairs.filter (r == ·.2)).map (·.1), b)) ∧
      Shows m' ⟨c.rights.filter (fun b => !(r == b)), c.pairs.filter fun p => !(r == p.2)⟩ := by
  have h := h.repr_of_shows hc
  rw [hc.arePaired] at hp
  obtain ⟨o, m', e, ho, h', _⟩ := remove_refines h l r
  simp only [GroupSpec.remove, hp, if_true] at ho h'
  exact ⟨o, m', e, ho, h'.shows⟩

/-- C70: `remove(l, r)` of items not paired with each other returns `None` and changes nothing. -/
theorem C70_remove_not_paired (h : Reachable m) (hc : Shows m c) (l : L) (r : R) (hp : m.arePaired l r = false) :
    ∃ m', m.remove l r = .ok (none, m') ∧ Shows m' c := by
  have h := h.repr_of_shows hc
  rw [hc.arePaired] at hp
  obtain ⟨o, m', e, ho, h', _⟩ := remove_refines h l r
  simp only [GroupSpec.remove, hp, Bool.false_eq_true, if_false] at ho h'
  cases o with
  | none => exact ⟨m', e, h'.shows⟩
  | some _ => exact ho.elim

example : ∃ o m', demo.removeRight 10 = .ok (o, m') ∧ SameEntry o (some ([2, 1], 10)) ∧
    Shows m' ⟨[30, 20], [(3, 20)]⟩ := C70_remove_right demo_reachable demo_shows 10
example : ∃ o m', demo.remove 2 10 = .ok (o, m') ∧ SameEntry o (some ([2, 1], 10)) ∧
    Shows m' ⟨[30, 20], [(3, 20)]⟩ :=
  C70_remove demo_reachable demo_shows 2 10 (by rw [demo_shows.arePaired]; rfl)
example : ∃ m', demo.remove 3 10 = .ok (none, m') ∧ Shows m' demoC :=
  C70_remove_not_paired demo_reachable demo_shows 3 10 (by rw [demo_shows.arePaired]; rfl)

/-! ### C71: queries -/

/-- C71: the answers of the queries, read off the contents. -/
theorem C71_queries (h : Reachable m) : ∃ c : Contents L R, c.Sound ∧
    (∃ ps, m.iterPairedList = .ok ps ∧ ps.Perm c.pairs) ∧ m.iterRight.Perm c.rights ∧
    (∀ l, m.containsLeft l = c.pairs.any (l == ·.1)) ∧
    (∀ r, m.containsRight r = c.rights.any (r == ·)) ∧
    (∀ r, m.isRightPaired r = c.pairs.any (r == ·.2)) ∧
    (∀ l r, m.arePaired l r = c.pairs.any fun p => l == p.1 && r == p.2) ∧
    (∀ l, m.getRight l = (c.pairs.find? (l == ·.1)).map (·.2)) ∧
    (∀ r, ∃ g, m.getLeftList r = .ok ((c.rights.find? (r == ·)).map fun _ => g) ∧
      g.Perm ((c.pairs.filter (r == ·.2)).map (·.1))) := by
  obtain ⟨c, hc⟩ := h.repr
  have s := hc.shows
  exact ⟨c, s.sound, s.iterPaired, s.iterRight, s.containsLeft, s.containsRight, s.isRightPaired, s.arePaired,
    s.getRight, s.getLeft⟩

example : demo.containsLeft 3 = true ∧ demo.containsRight 30 = true ∧ demo.isRightPaired 30 = false ∧
    demo.arePaired 3 10 = false ∧ demo.getRight 9 = none := by
  simp [demo_shows.containsLeft, demo_shows.containsRight, demo_shows.isRightPaired, demo_shows.arePaired,
    demo_shows.getRight, demoC, hasGroup, hasPair, findL]

/-! ### C78: lengths -/

/-- C78: in every reachable map, the lengths count the left items and the right items, and `is_empty` means that
there is none of either. -/
theorem C78_len (h : Reachable m) : m.lenLeft = m.iterLeft.length ∧ m.lenRight = m.iterRight.length ∧
    (m.isEmpty = true ↔ m.iterLeft = [] ∧ m.iterRight = []) ∧
    (∀ c, Shows m c → m.lenLeft = c.pairs.length ∧ m.lenRight = c.rights.length) := by
  obtain ⟨c, hc⟩ := h.repr
  have s := hc.shows
  refine ⟨?_, ?_, ?_, fun c hc => ⟨hc.lenLeft, hc.lenRight⟩⟩
  · rw [s.lenLeft, s.iterLeft.length_eq, List.length_map]
  · rw [s.lenRight, s.iterRight.length_eq]
  · rw [s.isEmpty, List.isEmpty_iff, ← List.length_eq_zero_iff, ← List.length_eq_zero_iff (l := m.iterLeft),
      ← List.length_eq_zero_iff (l := m.iterRight), s.iterLeft.length_eq, s.iterRight.length_eq, List.length_map]
    refine ⟨fun e => ⟨?_, e⟩, fun e => e.2⟩
    rw [List.length_eq_zero_iff] at e ⊢
    cases hp : c.pairs with
    | nil => rfl
    | cons p ps =>
      have := s.sound.owned p (by simp [hp])
      rw [e] at this
      simp at this

/-- C78: `clear` leaves nothing, whatever the map. -/
theorem C78_clear (m : GroupMap L R) : Shows m.clear GroupSpec.empty ∧ m.clear.isEmpty = true ∧
    m.clear.lenLeft = 0 ∧ m.clear.lenRight = 0 := by
  have s := (clear_refines (G := True) m).shows
  exact ⟨s, s.isEmpty, s.lenLeft, s.lenRight⟩

/-- C78: a new map is empty. -/
theorem C78_new (hb : BuildHasher L R) (n : Nat) : Shows (withHasher hb) GroupSpec.empty ∧
    Shows (withCapacityAndHasher n hb) GroupSpec.empty :=
  ⟨(withHasher_repr (G := True) hb).shows, (withCapacity_repr (G := True) n hb).shows⟩

example : demo.lenLeft = 3 ∧ demo.lenRight = 3 ∧ demo.isEmpty = false :=
  ⟨demo_shows.lenLeft, demo_shows.lenRight, demo_shows.isEmpty⟩
example : Shows demo.clear (GroupSpec.empty : Contents Nat Nat) := (C78_clear demo).1

end Verif.GroupMap
