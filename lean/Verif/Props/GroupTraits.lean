import Verif.Props.GroupSwap
import Verif.Props.GroupIter
import Verif.GroupMap.Counter
/-! Properties C76, C77, C79 of `GroupMap` (equality, extension, hash independence), its part of C32, and C83, C84
(cloning, borrowed lookup). -/
set_option linter.unusedSectionVars false
set_option linter.unusedSimpArgs false
namespace Verif.GroupMap
open GroupSpec Demo

variable [RawImpl] [LawfulRaw] {L R : Type} [BEq L] [BEq R] [EquivBEq L] [EquivBEq R]
variable {m : GroupMap L R} {c : Contents L R}

/-! ### C76 -/

/-- every pair and every right item of the first is in the second, up to `==` of the items -/
def Sub (c d : Contents L R) : Prop :=
  (∀ p ∈ c.pairs, ∃ q ∈ d.pairs, (p.1 == q.1) = true ∧ (p.2 == q.2) = true) ∧
  ∀ r ∈ c.rights, ∃ b ∈ d.rights, (r == b) = true

/-- C76 in full: `==` never panics and holds exactly if the two maps have the same pairs and right items (up to
`==` of the items).  False, see `C76_false`. -/
def C76_full : Prop :=
  ∀ [RawImpl] [LawfulRaw] (L R : Type) [BEq L] [BEq R] [EquivBEq L] [EquivBEq R] (m m' : GroupMap L R)
    (c c' : Contents L R), Reachable m → Shows m c → Reachable m' → Shows m' c' →
    ∃ b, m.eq m' = .ok b ∧ (b = true ↔ Sub c c' ∧ Sub c' c)

/-- What `==` computes: it is true if *one* of the two sides has the same number of items in both maps, every pair
of the first map is a pair of the second, and no lone right item of the first has left items in the second (it may be
missing there). -/
theorem C76_actual {m' : GroupMap L R} {c' : Contents L R} (h : Reachable m) (hc : Shows m c) (h' : Reachable m')
    (hc' : Shows m' c') :
    ∃ b, m.eq m' = .ok b ∧ (b = true ↔
      (m.lenLeft = m'.lenLeft ∨ m.lenRight = m'.lenRight) ∧
      (∀ p ∈ c.pairs, ∃ q ∈ c'.pairs, (p.1 == q.1) = true ∧ (p.2 == q.2) = true) ∧
      (∀ r ∈ c.rights, (∀ p ∈ c.pairs, (r == p.2) = false) → ∀ q ∈ c'.pairs, (r == q.2) = false)) := by
  refine ⟨_, eq_refines (h.repr_of_shows hc) (h'.repr_of_shows hc'), ?_⟩
  rw [hc.lenLeft, hc'.lenLeft, hc.lenRight, hc'.lenRight, Bool.and_eq_true, Bool.and_eq_true, List.all_eq_true,
    List.all_eq_true]
  refine and_congr ?_ (and_congr ?_ ?_)
  · simp [bne_iff_ne, Classical.or_iff_not_imp_left]
  · simp [hasPair, List.any_eq_true]
  · simp [lone, hasGroup, List.mem_filter, List.any_eq_false]

/-- C76, what holds: maps with the same pairs and right items always compare equal; and for two maps with the same
left items and the same right items, `==` says exactly whether they have the same pairs (so it is symmetric on such
maps).  Missing: maps with different items; see `C76_actual` for what happens then. -/
theorem C76_eq_partial {m' : GroupMap L R} {c' : Contents L R} (h : Reachable m) (hc : Shows m c)
    (h' : Reachable m') (hc' : Shows m' c') :
    (Sub c c' → Sub c' c → m.eq m' = .ok true) ∧
    ((∀ l, m.containsLeft l = m'.containsLeft l) → (∀ r, m.containsRight r = m'.containsRight r) →
      ∃ b, m.eq m' = .ok b ∧ (b = true ↔ Sub c c' ∧ Sub c' c)) := by
  obtain ⟨b, e, hb⟩ := C76_actual h hc h' hc'
  have key : Sub c c' → Sub c' c → b = true := by
    intro s1 s2
    refine hb.2 ⟨.inr ?_, s1.1, ?_⟩
    · rw [hc.lenRight, hc'.lenRight]
      exact Nat.le_antisymm (PartialSpec.length_le_of_sub hc.sound.rights s1.2)
        (PartialSpec.length_le_of_sub hc'.sound.rights s2.2)
    · intro r hr hl q hq
      obtain ⟨p, hp, _, h2⟩ := s2.1 q hq
      rw [Bool.eq_false_iff]
      intro hrq
      have := hl p hp
      rw [BEq.trans hrq h2] at this; cases this
  refine ⟨fun s1 s2 => by rw [e, key s1 s2], fun hL hR => ⟨b, e, ?_, fun hs => key hs.1 hs.2⟩⟩
  intro hbt
  obtain ⟨_, hp, _⟩ := hb.1 hbt
  have memR : ∀ r, (∃ y ∈ c.rights, (r == y) = true) ↔ ∃ y ∈ c'.rights, (r == y) = true := by
    intro r
    have := hR r
    rw [hc.containsRight, hc'.containsRight, Bool.eq_iff_iff, List.any_eq_true, List.any_eq_true] at this
    exact this
  refine ⟨⟨hp, fun r hr => (memR r).1 ⟨r, hr, BEq.rfl⟩⟩, fun q hq => ?_, fun r hr => (memR r).2 ⟨r, hr, BEq.rfl⟩⟩
  have : m.containsLeft q.1 = true := by
    rw [hL, hc'.containsLeft, List.any_eq_true]; exact ⟨q, hq, BEq.rfl⟩
  rw [hc.containsLeft, List.any_eq_true] at this
  obtain ⟨p, hpm, hqp⟩ := this
  obtain ⟨q', hq', h1, h2⟩ := hp p hpm
  obtain rfl := unique_of_apart hc'.sound.lefts hq hq' (l := p.1) (BEq.symm hqp) h1
  exact ⟨p, hpm, hqp, BEq.symm h2⟩

theorem Sub.refl (c : Contents L R) : Sub c c :=
  ⟨fun p hp => ⟨p, hp, BEq.rfl, BEq.rfl⟩, fun r hr => ⟨r, hr, BEq.rfl⟩⟩

/-- a map is equal to itself -/
theorem C76_refl (h : Reachable m) : m.eq m = .ok true := by
  obtain ⟨c, hc⟩ := h.repr
  have hs := hc.shows
  exact (C76_eq_partial h hs h hs).1 (.refl c) (.refl c)

example : demo.eq demo = .ok true := C76_refl demo_reachable

/-- the map with these items, whatever the table implementation -/
theorem of_items (hb : BuildHasher L R) (xs : List (Option L × R)) (hn : NewPairs GroupSpec.empty xs) :
    ∃ m : GroupMap L R, fromIterOpt hb xs = .ok m ∧ Reachable m ∧ Shows m (insertAll GroupSpec.empty xs) := by
  obtain ⟨m, e, h, _⟩ := extendOpt_refines (withHasher_repr hb) xs hn
  exact ⟨m, e, (Reachable.new hb).extendOpt (withHasher_repr hb) xs hn e, h.shows⟩

/-- `demo` against the map in which 2 belongs to 20 instead of 10: same items, so the answer is right -/
example : ∃ m', demo.pair 2 20 = .ok (true, m') ∧ demo.eq m' = .ok false := by
  obtain ⟨m', e, s⟩ := C68_pair demo_reachable demo_shows 2 2 20 20 10 rfl rfl
  have r : Reachable m' := .step (op := .pair 2 20) (o := .bool true) demo_reachable trivial
    (by simp only [exec, e, bind, Except.bind, pure, Except.pure])
  obtain ⟨b, e', hb⟩ := (C76_eq_partial demo_reachable demo_shows r s).2
    (fun l => by
      rw [demo_shows.containsLeft, s.containsLeft]
      simp [demoC]
      cases l == 1 <;> cases l == 2 <;> cases l == 3 <;> rfl)
    (fun l => by rw [demo_shows.containsRight, s.containsRight])
  refine ⟨m', e, ?_⟩
  cases b with
  | false => exact e'
  | true =>
    obtain ⟨x, hx, h1, h2⟩ := (hb.1 rfl).1.1 (2, 10) (by simp [demoC])
    simp [demoC] at hx
    rcases hx with rfl | rfl | rfl <;> simp at h1 h2

omit [RawImpl] [LawfulRaw] in
/-- C76 in full is false: `{10} == {20}` for two maps with a lone right item each. -/
theorem C76_false : ¬ C76_full := by
  intro h
  letI := messyRaw; haveI := messyRaw_lawful
  obtain ⟨m, _, r, s⟩ := of_items constHash [((none : Option Nat), 10)] trivial
  obtain ⟨m', _, r', s'⟩ := of_items constHash [((none : Option Nat), 20)] trivial
  have s : Shows m ⟨[10], []⟩ := s
  have s' : Shows m' ⟨[20], []⟩ := s'
  obtain ⟨b, e, hb⟩ := C76_actual r s r' s'
  obtain ⟨b', e', hb'⟩ := h Nat Nat m m' _ _ r s r' s'
  rw [e] at e'; cases e'
  have : b = true := hb.2 ⟨.inl (by rw [s.lenLeft, s'.lenLeft]), by simp, by simp⟩
  obtain ⟨x, hx, hs⟩ := (hb'.1 this).1.2 10 (by simp)
  simp at hx; subst hx; simp at hs

/-- … and `==` is not symmetric: `{(none, 20)} == {(1, 10)}` but not conversely. -/
theorem C76_not_symmetric_false : ∃ m m' : GroupMap Nat Nat, Reachable m ∧ Reachable m' ∧
    m.eq m' = .ok true ∧ m'.eq m = .ok false := by
  obtain ⟨m, _, r, s⟩ := of_items constHash [((none : Option Nat), 20)] trivial
  obtain ⟨m', _, r', s'⟩ := of_items constHash [(some 1, 10)] ⟨rfl, trivial⟩
  have s : Shows m ⟨[20], []⟩ := s
  have s' : Shows m' ⟨[10], [(1, 10)]⟩ := s'
  obtain ⟨b, e, hb⟩ := C76_actual r s r' s'
  obtain ⟨b', e', hb'⟩ := C76_actual r' s' r s
  refine ⟨m, m', r, r', ?_, ?_⟩
  · rw [e, hb.2 ⟨.inr (by rw [s.lenRight, s'.lenRight]; rfl), by simp, by simp⟩]
  · cases b' with
    | false => exact e'
    | true =>
      obtain ⟨p, hm, _⟩ := (hb'.1 rfl).2.1 (1, 10) (by simp)
      simp at hm

/-! ### C77 -/

omit [LawfulRaw] [EquivBEq L] [EquivBEq R] in
/-- C77: extending (any map whatever) is inserting the elements one after the other, pairs by `insert` and lone
right items by `insert_right`; also when one of these calls panics. -/
theorem C77_extend_is_inserts (m : GroupMap L R) (xs : List (Option L × R)) :
    m.extendOpt xs = (m.run (xs.map fun x => match x with
      | (some l, r) => .insert l r
      | (none, r) => .insertRight r)).map (·.2) := by
  induction xs generalizing m with
  | nil => rfl
  | cons x xs ih =>
    obtain ⟨_ | l, r⟩ := x
    · simp only [extendOpt, List.map_cons, run, exec]
      cases e : m.insertRight r with
      | error => simp [bind, Except.bind, Except.map]
      | ok a =>
        simp only [bind, Except.bind, ih, pure, Except.pure]
        cases run a.2 _ <;> rfl
    · simp only [extendOpt, List.map_cons, run, exec]
      cases e : m.insert l r with
      | error => simp [bind, Except.bind, Except.map]
      | ok a =>
        simp only [bind, Except.bind, ih, pure, Except.pure]
        cases run a _ <;> rfl

/-- C77: a sequence of pairs, and `collect`. -/
theorem C77_pairs (m : GroupMap L R) (hb : BuildHasher L R) (xs : List (L × R)) (ys : List (Option L × R)) :
    m.extend xs = (m.run (xs.map fun p => .insert p.1 p.2)).map (·.2) ∧
    fromIter hb xs = ((withHasher hb).run (xs.map fun p => .insert p.1 p.2)).map (·.2) ∧
    fromIterOpt hb ys = ((withHasher hb).run (ys.map fun x => match x with
      | (some l, r) => .insert l r
      | (none, r) => .insertRight r)).map (·.2) := by
  have key : ∀ m : GroupMap L R, m.extend xs = (m.run (xs.map fun p => .insert p.1 p.2)).map (·.2) := by
    intro m
    rw [extend_eq_extendOpt, C77_extend_is_inserts, List.map_map]; rfl
  exact ⟨key m, key _, C77_extend_is_inserts _ _⟩

/-- the element concerns the left item `l`, or takes away its group -/
def touches (l : L) (r : R) : Option L × R → Bool
  | (some a, _) => l == a
  | (none, b) => r == b

theorem hasPair_insert (c : Contents L R) (l a : L) (r b : R) :
    hasPair (GroupSpec.insert c l r) a b = if a == l then b == r else hasPair c a b := by
  have h1 : (a == ((findL c l).map (·.1)).getD l) = (a == l) := by
    cases hf : findL c l with
    | none => rfl
    | some p => exact BEq.congr_right (BEq.symm (List.find?_some (p := fun q : L × R => l == q.1) hf))
  have h2 : (b == (findR c r).getD r) = (b == r) := by
    cases hf : findR c r with
    | none => rfl
    | some p => exact BEq.congr_right (BEq.symm (List.find?_some (p := fun q : R => r == q) hf))
  simp only [hasPair, GroupSpec.insert, List.any_cons, h1, h2, eraseL, List.any_filter]
  by_cases hal : (a == l) = true
  · rw [hal, if_pos rfl, Bool.true_and, Bool.or_eq_left_iff_imp.2]
    intro hx
    obtain ⟨p, _, hp⟩ := List.any_eq_true.1 hx
    simp only [Bool.and_eq_true, Bool.not_eq_true'] at hp
    rw [BEq.trans (BEq.symm hal) hp.2.1] at hp; cases hp.1
  · have hal : (a == l) = false := by simpa using hal
    rw [hal, if_neg (by simp), Bool.false_and, Bool.false_or]
    congr 1; funext p
    by_cases hp : (a == p.1) = true
    · have : (l == p.1) = false := by
        rw [Bool.eq_false_iff]; intro hl
        rw [BEq.trans hp (BEq.symm hl)] at hal; cases hal
      simp [this]
    · simp [hp]

theorem hasPair_insertRight (c : Contents L R) (a : L) (r b : R) :
    hasPair (GroupSpec.insertRight c r).2 a b = (hasPair c a b && !(b == r)) := by
  simp only [hasPair, GroupSpec.insertRight, eraseR, List.any_filter]
  by_cases hb : (b == r) = true
  · rw [hb, Bool.not_true, Bool.and_false, List.any_eq_false]
    intro p _
    simp only [Bool.and_eq_true, Bool.not_eq_true', not_and]
    intro hr _ hbp
    rw [BEq.trans (BEq.symm hb) hbp] at hr; cases hr
  · have hb : (b == r) = false := by simpa using hb
    rw [hb, Bool.not_false, Bool.and_true]
    congr 1; funext p
    by_cases hp : (b == p.2) = true
    · have : (r == p.2) = false := by
        rw [Bool.eq_false_iff]; intro hl
        rw [BEq.trans hp (BEq.symm hl)] at hb; cases hb
      simp [this]
    · simp [hp]

theorem hasPair_insertAll (xs : List (Option L × R)) (c : Contents L R) (l : L) (r : R) :
    hasPair (insertAll c xs) l r = true ↔
      (∃ ys a b zs, xs = ys ++ (some a, b) :: zs ∧ (l == a) = true ∧ (r == b) = true ∧
        ∀ z ∈ zs, touches l r z = false) ∨
      (hasPair c l r = true ∧ ∀ z ∈ xs, touches l r z = false) := by
  induction xs generalizing c with
  | nil => simp [insertAll]
  | cons x xs ih =>
    have split : ∀ P : List (Option L × R) → Option L → R → List (Option L × R) → Prop,
        (∃ ys a b zs, x :: xs = ys ++ (some a, b) :: zs ∧ P ys (some a) b zs) ↔
        (∃ a b, x = (some a, b) ∧ P [] (some a) b xs) ∨
        ∃ ys a b zs, xs = ys ++ (some a, b) :: zs ∧ P (x :: ys) (some a) b zs := by
      intro P
      constructor
      · rintro ⟨ys, a, b, zs, h, hP⟩
        cases ys with
        | nil => cases h; exact .inl ⟨a, b, rfl, hP⟩
        | cons y ys => cases h; exact .inr ⟨ys, a, b, zs, rfl, hP⟩
      · rintro (⟨a, b, rfl, hP⟩ | ⟨ys, a, b, zs, rfl, hP⟩)
        · exact ⟨[], a, b, xs, rfl, hP⟩
        · exact ⟨x :: ys, a, b, zs, rfl, hP⟩
    have hsplit := split fun _ a b zs => (∀ a', a = some a' → (l == a') = true) ∧ (r == b) = true ∧
      ∀ z ∈ zs, touches l r z = false
    simp only [Option.some.injEq, forall_eq'] at hsplit
    rw [hsplit]
    obtain ⟨_ | a, b⟩ := x
    · rw [insertAll, ih, hasPair_insertRight]
      simp only [Bool.and_eq_true, Bool.not_eq_true', List.mem_cons, forall_eq_or_imp, touches, Prod.mk.injEq,
        reduceCtorEq, false_and, exists_false, false_or, and_assoc]
    · rw [insertAll, ih, hasPair_insert]
      simp only [List.mem_cons, forall_eq_or_imp, touches]
      by_cases hl : (l == a) = true
      · simp only [hl, if_true, Bool.true_eq_false, false_and, and_false, or_false]
        constructor
        · rintro (h | ⟨h1, h2⟩)
          · exact .inr h
          · exact .inl ⟨a, b, rfl, hl, h1, h2⟩
        · rintro (⟨a', b', e, _, h1, h2⟩ | h)
          · cases e; exact .inr ⟨h1, h2⟩
          · exact .inl h
      · have hl : (l == a) = false := by simpa using hl
        simp only [hl, Bool.false_eq_true, if_false, true_and]
        constructor
        · rintro (h | h)
          · exact .inl (.inr h)
          · exact .inr h
        · rintro ((⟨a', b', e, h, _⟩ | h) | h)
          · cases e; rw [hl] at h; cases h
          · exact .inl h
          · exact .inr h

theorem rights_insertAll (xs : List (Option L × R)) (c : Contents L R) (r : R) :
    (insertAll c xs).rights.any (r == ·) = (c.rights.any (r == ·) || xs.any (r == ·.2)) := by
  induction xs generalizing c with
  | nil => simp [insertAll]
  | cons x xs ih =>
    have hir : ∀ b : R, ((GroupSpec.insertRight c b).2.rights.any (r == ·)) = (c.rights.any (r == ·) || r == b) := by
      intro b
      simp only [GroupSpec.insertRight, eraseR, List.any_cons, List.any_filter]
      by_cases hb : (r == b) = true
      · simp [hb]
      · have hb : (r == b) = false := by simpa using hb
        rw [hb, Bool.false_or, Bool.or_false]
        congr 1; funext p
        by_cases hp : (r == p) = true
        · have : (b == p) = false := by
            rw [Bool.eq_false_iff]; intro hl
            rw [BEq.trans hp (BEq.symm hl)] at hb; cases hb
          simp [this]
        · simp [hp]
    obtain ⟨_ | a, b⟩ := x
    · rw [insertAll, ih, hir, List.any_cons, Bool.or_assoc]
    · rw [insertAll, ih, List.any_cons]
      simp only [GroupSpec.insert]
      cases hf : findR c b with
      | none => simp only [List.any_cons]; cases r == b <;> simp
      | some y =>
        have hy := List.find?_some (p := fun q : R => b == q) hf
        have hm : y ∈ c.rights := List.mem_of_find?_eq_some hf
        simp only
        by_cases hb : (r == b) = true
        · have : c.rights.any (r == ·) = true := List.any_eq_true.2 ⟨y, hm, BEq.trans hb hy⟩
          rw [this]; simp
        · have hb : (r == b) = false := by simpa using hb
          rw [hb]; simp

/-- C77, the result for sequences that bring no pair that is in the map at that time (`NewPairs`): `l` belongs to `r`
exactly if the sequence says so, and later neither has another right item for `l` nor the lone right item `r`, or if
it was so before, and the sequence has neither; right items come from the map and the sequence. -/
theorem C77_extend (h : Reachable m) (hc : Shows m c) (xs : List (Option L × R)) (hn : NewPairs c xs) :
    ∃ m' c', m.extendOpt xs = .ok m' ∧ Reachable m' ∧ Shows m' c' ∧
      (∀ l r, m'.arePaired l r = true ↔
        (∃ ys a b zs, xs = ys ++ (some a, b) :: zs ∧ (l == a) = true ∧ (r == b) = true ∧
          ∀ z ∈ zs, touches l r z = false) ∨
        (m.arePaired l r = true ∧ ∀ z ∈ xs, touches l r z = false)) ∧
      ∀ r, m'.containsRight r = (m.containsRight r || xs.any (r == ·.2)) := by
  have hr := h.repr_of_shows hc
  obtain ⟨m', e, h', _⟩ := extendOpt_refines hr xs hn
  have hs := h'.shows
  refine ⟨m', _, e, h.extendOpt hr xs hn e, hs, fun l r => ?_, fun r => ?_⟩
  · rw [hs.arePaired, hc.arePaired, hasPair_insertAll]
  · rw [hs.containsRight, hc.containsRight, rights_insertAll]

example : ∃ m' c', demo.extendOpt [(some 1, 20), (some 4, 30), (none, 20)] = .ok m' ∧ Shows m' c' ∧
    m'.arePaired 4 30 = true ∧ m'.arePaired 1 20 = false ∧ m'.arePaired 2 10 = true := by
  obtain ⟨m', c', e, _, s, h, _⟩ := C77_extend demo_reachable demo_shows [(some 1, 20), (some 4, 30), (none, 20)]
    (by simp [NewPairs, demoC, hasPair, GroupSpec.insert, findR, findL, eraseL])
  refine ⟨m', c', e, s, (h 4 30).2 (.inl ⟨[_], 4, 30, [_], rfl, rfl, rfl, by simp [touches]⟩), ?_,
    (h 2 10).2 (.inr ⟨by rw [demo_shows.arePaired]; rfl, by simp [touches]⟩)⟩
  rw [Bool.eq_false_iff]
  intro hp
  rcases (h 1 20).1 hp with ⟨ys, a, b, zs, e, ha, _, hz⟩ | ⟨_, hz⟩
  · rcases ys with _ | ⟨_, _ | ⟨_, _ | ⟨_, ys⟩⟩⟩
    · cases e; simp [touches] at hz
    · cases e; simp at ha
    · cases e
    · exact absurd (congrArg List.length e) (by simp)
  · simp [touches] at hz

omit [RawImpl] [LawfulRaw] in
/-- C77: a repeated pair in a sequence is not harmless, as `insert` is not (C62):
`[(1, 10), (1, 10)].into_iter().collect()` is a map on which `remove_left(1)` panics. -/
theorem C77_repeated_pair [RawImpl] [LawfulRaw] : ∃ m : GroupMap Nat Nat,
    fromIter constHash [(1, 10), (1, 10)] = .ok m ∧ m.getRight 1 = some 10 ∧ m.arePaired 1 10 = false ∧
      m.removeLeft 1 = .error .unwrapNone := by
  obtain ⟨m, e, r, s⟩ := of_items constHash [(some 1, 10)] ⟨rfl, trivial⟩
  have s : Shows m ⟨[10], [(1, 10)]⟩ := s
  obtain ⟨m', e', s', _, h, _⟩ := C62_actual r s 1 10 (by rw [s.arePaired]; rfl)
  refine ⟨m', ?_, by rw [s'.getRight]; rfl, by rw [s'.arePaired]; rfl, h⟩
  simp only [fromIterOpt, extendOpt] at e
  obtain ⟨m1, e1, e⟩ := CycleMap.bind_ok e
  cases e
  simp only [fromIter, extend, e1, e', bind, Except.bind]

/-! ### C79 -/

/-- C79 in full: two runs of the same history, under different hash builders and table implementations, that both
finish return the same results (visited items up to order).  False, see `C79_false`. -/
def C79_full : Prop :=
  ∀ (L R : Type) [BEq L] [BEq R] [EquivBEq L] [EquivBEq R] (I₁ I₂ : RawImpl) (_ : @LawfulRaw I₁) (_ : @LawfulRaw I₂)
    (hb₁ hb₂ : BuildHasher L R) (ops : List (Op L R)), (∀ op ∈ ops, OrderFree op) →
    ∀ os₁ m₁ os₂ m₂, @run I₁ L R _ _ (@withHasher I₁ L R _ _ hb₁) ops = .ok (os₁, m₁) →
      @run I₂ L R _ _ (@withHasher I₂ L R _ _ hb₂) ops = .ok (os₂, m₂) →
      os₁.length = os₂.length ∧ ∀ p ∈ os₁.zip os₂, SameOut p.1 p.2

omit [RawImpl] [LawfulRaw] in
/-- C79, what holds: a safe history returns the same results, call by call, under any two hash builders and table
implementations.  Missing: histories with the calls excluded by `Safe`. -/
theorem C79_hash_independent_partial (I₁ I₂ : RawImpl) (hI₁ : @LawfulRaw I₁) (hI₂ : @LawfulRaw I₂)
    (hb₁ hb₂ : BuildHasher L R) (ops : List (Op L R)) (hs : SafeRun GroupSpec.empty ops)
    (ho : ∀ op ∈ ops, OrderFree op) :
    ∃ os₁ m₁ os₂ m₂, @run I₁ L R _ _ (@withHasher I₁ L R _ _ hb₁) ops = .ok (os₁, m₁) ∧
      @run I₂ L R _ _ (@withHasher I₂ L R _ _ hb₂) ops = .ok (os₂, m₂) ∧ os₁.length = os₂.length ∧
      (∀ p ∈ os₁.zip os₂, SameOut p.1 p.2) ∧ ∃ c, @Shows I₁ L R _ _ m₁ c ∧ @Shows I₂ L R _ _ m₂ c := by
  suffices key : ∀ (ops : List (Op L R)) (m₁ m₂ : GroupMap L R) (c : Contents L R), Repr m₁ c → Repr m₂ c →
      SafeRun c ops → (∀ op ∈ ops, OrderFree op) →
      ∃ os₁ m₁' os₂ m₂', @run I₁ L R _ _ m₁ ops = .ok (os₁, m₁') ∧ @run I₂ L R _ _ m₂ ops = .ok (os₂, m₂') ∧
        os₁.length = os₂.length ∧ (∀ p ∈ os₁.zip os₂, SameOut p.1 p.2) ∧ ∃ c, Repr m₁' c ∧ Repr m₂' c by
    obtain ⟨os₁, m₁, os₂, m₂, e₁, e₂, hl, hz, c, r₁, r₂⟩ := key ops (@withHasher I₁ L R _ _ hb₁) (@withHasher I₂ L R _ _ hb₂) _
      (@withHasher_repr I₁ hI₁ L R _ _ _ _ _ hb₁) (@withHasher_repr I₂ hI₂ L R _ _ _ _ _ hb₂) hs ho
    exact ⟨os₁, m₁, os₂, m₂, e₁, e₂, hl, hz, c, @ReprG.shows I₁ hI₁ _ _ _ _ _ _ _ _ r₁, @ReprG.shows I₂ hI₂ _ _ _ _ _ _ _ _ r₂⟩
  intro ops
  induction ops with
  | nil => intro m₁ m₂ c r₁ r₂ _ _; exact ⟨[], m₁, [], m₂, rfl, rfl, rfl, by simp, c, r₁, r₂⟩
  | cons op ops ih =>
    intro m₁ m₂ c r₁ r₂ hs ho
    obtain ⟨o₁, m₁', c₁, e₁, s₁, r₁', _⟩ := @exec_simulates I₁ hI₁ _ _ _ _ _ _ _ _ r₁ op hs.1
    obtain ⟨o₂, m₂', c₂, e₂, s₂, r₂', _⟩ := @exec_simulates I₂ hI₂ _ _ _ _ _ _ _ _ r₂ op hs.1
    obtain ⟨hso, hperm⟩ := step_det (ho op (by simp)) s₁ s₂
    obtain ⟨os₁, m₁'', os₂, m₂'', f₁, f₂, hl, hz, c', q₁, q₂⟩ :=
      ih m₁' m₂' c₁ r₁' (r₂'.same ⟨hperm.rights.symm, hperm.pairs.symm⟩)
        (hs.2 _ _ s₁) (fun op h => ho op (by simp [h]))
    refine ⟨o₁ :: os₁, m₁'', o₂ :: os₂, m₂'', ?_, ?_, by simp [hl], ?_, c', q₁, q₂⟩
    · simp only [run, e₁, f₁, bind, Except.bind, pure, Except.pure]
    · simp only [run, e₂, f₂, bind, Except.bind, pure, Except.pure]
    · intro p hp
      rw [List.zip_cons_cons, List.mem_cons] at hp
      rcases hp with rfl | hp
      · exact hso
      · exact hz p hp

/-- a history to which it applies -/
example : let ops : List (Op Nat Nat) := [.insert 1 10, .insertLeft 2 10, .getRight 2, .removeLeft 1, .iter]
    ∃ os₁ m₁ os₂ m₂, @run tidyRaw Nat Nat _ _ (@withHasher tidyRaw Nat Nat _ _ spreadHash) ops = .ok (os₁, m₁) ∧
    @run messyRaw Nat Nat _ _ (@withHasher messyRaw Nat Nat _ _ constHash) ops = .ok (os₂, m₂) ∧
    os₁.length = os₂.length ∧ (∀ p ∈ os₁.zip os₂, SameOut p.1 p.2) ∧
    ∃ c, @Shows tidyRaw Nat Nat _ _ m₁ c ∧ @Shows messyRaw Nat Nat _ _ m₂ c :=
  C79_hash_independent_partial tidyRaw messyRaw tidyRaw_lawful messyRaw_lawful spreadHash constHash
    [.insert 1 10, .insertLeft 2 10, .getRight 2, .removeLeft 1, .iter]
    ⟨rfl, by rintro _ _ ⟨rfl, rfl⟩; simp [SafeRun, Safe]⟩ (by simp [OrderFree])

omit [RawImpl] [LawfulRaw] [BEq L] [BEq R] [EquivBEq L] [EquivBEq R] in
/-- C79 in full is false: after `insert(1, 10)` and `swap_right(10, 20)`, `get_right(1)` is `None`, or `Some(10)` if
the hashes of 10 and 20 are equal. -/
theorem C79_false : ¬ C79_full := by
  intro h
  let ops : List (Op Nat Nat) := [.insert 1 10, .swapRight 10 20, .getRight 1]
  have key : ∀ hb b, (match @run tidyRaw Nat Nat _ _ (@withHasher tidyRaw Nat Nat _ _ hb) ops with
        | .ok ([_, _, .right x], _) => some x
        | _ => none) = some b →
      ∃ o₁ o₂ m, @run tidyRaw Nat Nat _ _ (@withHasher tidyRaw Nat Nat _ _ hb) ops = .ok ([o₁, o₂, .right b], m) := by
    intro hb b hx
    split at hx
    · rename_i o₁ o₂ x m e
      cases hx; exact ⟨o₁, o₂, m, e⟩
    · cases hx
  obtain ⟨o₁, o₂, m, e⟩ := key spreadHash none (by decide)
  obtain ⟨o₁', o₂', m', e'⟩ := key constHash (some 10) (by decide)
  have := (h Nat Nat tidyRaw tidyRaw tidyRaw_lawful tidyRaw_lawful spreadHash constHash ops (by simp [ops, OrderFree])
    _ _ _ _ e e').2 (.right none, .right (some 10)) (by simp)
  simp [SameOut] at this

/-! ### C32 for `GroupMap` -/

omit [LawfulRaw] [EquivBEq L] [EquivBEq R] in
/-- C32: the two id counters of any `GroupMap` grow by at most one per insertion or `swap_right`. -/
theorem C32_counter (ops : List (Op L R)) (os : List (Out L R)) (m m' : GroupMap L R) (h : m.run ops = .ok (os, m')) :
    let n := (ops.map fun op => match op with
      | .insert .. | .insertRemove .. | .insertLeft .. | .insertRight .. => 1
      | .swapRight .. | .swapRightRemove .. => 1
      | .extend xs => xs.length
      | .extendOpt xs => xs.length
      | _ => 0).sum
    m'.leftCounter ≤ m.leftCounter + n ∧ m'.rightCounter ≤ m.rightCounter + n := by
  have e : (ops.map cost).sum = (ops.map fun op => match op with
      | .insert .. | .insertRemove .. | .insertLeft .. | .insertRight .. => 1
      | .swapRight .. | .swapRightRemove .. => 1
      | .extend xs => xs.length
      | .extendOpt xs => xs.length
      | _ => 0).sum := by congr 2
  exact e ▸ run_grows h

/-- C32: ids in use are below their counter, and items on the same side have distinct ids. -/
theorem C32_ids (h : Reachable m) :
    (∀ e ∈ m.left.toList, e.id < m.leftCounter) ∧ (∀ e ∈ m.right.toList, e.id < m.rightCounter) ∧
    (m.left.toList.map (·.id)).Nodup ∧ (m.right.toList.map (·.id)).Nodup := by
  obtain ⟨c, ls, rs, hr, hf, ha⟩ := h.repr
  refine ⟨?_, ?_, ?_, ?_⟩
  · intro e he
    obtain ⟨x, hx, rfl⟩ := List.mem_map.1 he
    obtain ⟨p, hp, rfl⟩ := List.mem_map.1 (hr.left.mem_iff.1 hx)
    exact hr.wf.boundL p hp
  · intro e he
    obtain ⟨x, hx, rfl⟩ := List.mem_map.1 he
    obtain ⟨p, hp, rfl⟩ := List.mem_map.1 (hr.right.mem_iff.1 hx)
    exact hr.wf.boundR p hp
  · rw [RawTable.toList, List.map_map, (hr.left.map _).nodup_iff, List.Nodup, List.pairwise_map, List.pairwise_map]
    exact hr.wf.apartL.imp fun {p q} h => h.1
  · rw [RawTable.toList, List.map_map, (hr.right.map _).nodup_iff, List.Nodup, List.pairwise_map, List.pairwise_map]
    exact hr.wf.apartR.imp fun {p q} h => h.1

example : (demo.left.toList.map (·.id)).Nodup := (C32_ids demo_reachable).2.2.1

/-! ### C83 -/

/-- C83: a clone (made with any lawful `Clone` of the items) shows the cloned items and compares equal to the
original, both ways. -/
theorem C83_clone_eq (h : Reachable m) (hc : Shows m c) (cl : L → L) (cr : R → R) (hl : ∀ x, (cl x == x) = true)
    (hr : ∀ x, (cr x == x) = true) :
    Shows (m.clone cl cr) ⟨c.rights.map cr, c.pairs.map fun p => (cl p.1, cr p.2)⟩ ∧
    m.eq (m.clone cl cr) = .ok true ∧ (m.clone cl cr).eq m = .ok true := by
  have hk := (clone_refines (h.repr_of_shows hc) hl hr).shows
  have hreach : Reachable (m.clone cl cr) := .step (op := .clone cl cr) (o := .unit) h ⟨hl, hr⟩ rfl
  have s1 : Sub c (mapItems cl cr c) :=
    ⟨fun p hp => ⟨_, List.mem_map_of_mem hp, BEq.symm (hl _), BEq.symm (hr _)⟩,
      fun r hr' => ⟨_, List.mem_map_of_mem hr', BEq.symm (hr _)⟩⟩
  have s2 : Sub (mapItems cl cr c) c := by
    constructor
    · intro p hp
      obtain ⟨q, hq, rfl⟩ := List.mem_map.1 hp
      exact ⟨q, hq, hl _, hr _⟩
    · intro r hr'
      obtain ⟨q, hq, rfl⟩ := List.mem_map.1 hr'
      exact ⟨q, hq, hr _⟩
  exact ⟨hk, (C76_eq_partial h hc hreach hk).1 s1 s2, (C76_eq_partial hreach hk h hc).1 s2 s1⟩

omit [LawfulRaw] [EquivBEq L] [EquivBEq R] in
/-- C83: when cloning an item gives an identical item, every history returns the same on the clone. -/
theorem C83_clone_history (m : GroupMap L R) (ops : List (Op L R)) :
    (m.clone (fun x => x) (fun x => x)).run ops = m.run ops := by
  have : m.clone (fun x => x) (fun x => x) = m := by
    cases m
    simp only [clone, RawTable.clone, LeftItem.clone, RightItem.clone]
    congr <;> exact List.map_id _
  rw [this]

example : demo.eq (demo.clone (· + 0) (· + 0)) = .ok true :=
  (C83_clone_eq demo_reachable demo_shows (· + 0) (· + 0) (by simp) (by simp)).2.1

/-! ### C84 -/

/-- C84: lookup by another type `Q` that hashes like, and can be compared with, the stored items: the right item of
the stored left item that `q` matches, the left items of the stored right item that `q` matches, or `None`. -/
theorem C84_borrowed_lookup {Q : Type} (h : Reachable m) (hc : Shows m c) (q : Q) (hash : Q → UInt64) :
    (∀ cmp : Q → L → Bool, (∀ a, cmp q a = true → hash q = m.hb.hl a) →
      (∀ a b, cmp q a = true → cmp q b = true → (a == b) = true) →
      m.getRightBy (hash q) (cmp q) = (c.pairs.find? fun p => cmp q p.1).map (·.2)) ∧
    (∀ cmp : Q → R → Bool, (∀ a, cmp q a = true → hash q = m.hb.hr a) →
      (∀ a b, cmp q a = true → cmp q b = true → (a == b) = true) →
      ((∀ b ∈ c.rights, cmp q b = false) → m.getLeftIterBy (hash q) (cmp q) = none) ∧
      ∀ b ∈ c.rights, cmp q b = true → m.getLeftIterBy (hash q) (cmp q) = m.getLeftIter b) := by
  have hm := h.repr_of_shows hc
  obtain ⟨ls, rs, hr, hf, ha⟩ := hm
  constructor
  · intro cmp hh hu
    cases hx : c.pairs.find? (fun p => cmp q p.1) with
    | none =>
      rw [List.find?_eq_none] at hx
      rw [getRightBy, RawTable.get_none]; · rfl
      intro e he
      obtain ⟨x, hxm, rfl⟩ := List.mem_map.1 (hr.left.mem_iff.1 he)
      have := hx _ (ha.pairs.mem_iff.2 (List.mem_map_of_mem hxm))
      simpa [toL] using this
    | some p =>
      have hpm := List.mem_of_find?_eq_some hx
      have hp : cmp q p.1 = true := List.find?_some (p := fun p : L × R => cmp q p.1) hx
      have hg := hc.getRight p.1
      have hfl : findL c p.1 = some p := by
        cases hfl : findL c p.1 with
        | none => exact absurd BEq.rfl (List.find?_eq_none.1 hfl p hpm)
        | some p' =>
          rw [unique_of_apart hc.sound.lefts (List.mem_of_find?_eq_some hfl) hpm (l := p.1)
            (List.find?_some (p := fun q : L × R => p.1 == q.1) hfl) BEq.rfl]
      rw [hfl] at hg
      rw [Option.map_some] at hg ⊢
      obtain ⟨x, hxm, rfl⟩ := List.mem_map.1 (ha.pairs.mem_iff.1 hpm)
      obtain ⟨ls', hp'⟩ := perm_cons_of_mem hxm
      have hap := (List.pairwise_cons.1 (hr.wf.perm hp' (.refl _)).apartL).1
      have look : ∀ P : L → Bool, P x.l = true → (∀ a b, P a = true → P b = true → (a == b) = true) →
          m.left.get (m.hb.hl x.l) (fun y => P y.value) = some (toL m.hb x).2 := by
        intro P h1 h2
        refine RawTable.get_some (p := fun y : LeftItem L => P y.value) (hr.left.trans (hp'.map _)) rfl h1 ?_
        intro e he
        obtain ⟨y, hy, rfl⟩ := List.mem_map.1 he
        cases hPy : P y.l with
        | false => exact hPy
        | true =>
          have := (hap y hy).2
          rw [h2 _ _ h1 hPy] at this; cases this
      rw [← hg, getRight, hh _ hp, getRightBy, getRightBy, look (cmp q) hp hu,
        look (· == x.l) BEq.rfl fun a b h1 h2 => BEq.trans h1 (BEq.symm h2)]
  · intro cmp hh hu
    constructor
    · intro hn
      rw [getLeftIterBy, RawTable.get_none]; · rfl
      intro e he
      obtain ⟨y, hym, rfl⟩ := List.mem_map.1 (hr.right.mem_iff.1 he)
      exact hn _ (ha.rights.mem_iff.2 (List.mem_map_of_mem hym))
    · intro b hb hq
      obtain ⟨x, hxm, rfl⟩ := List.mem_map.1 (ha.rights.mem_iff.1 hb)
      obtain ⟨rs', hp'⟩ := perm_cons_of_mem hxm
      have hap := (List.pairwise_cons.1 (hr.wf.perm (.refl _) hp').apartR).1
      have look : ∀ P : R → Bool, P x.r = true → (∀ a b, P a = true → P b = true → (a == b) = true) →
          m.right.get (m.hb.hr x.r) (fun y => P y.value) = some (toR m.hb x).2 := by
        intro P h1 h2
        refine RawTable.get_some (p := fun y : RightItem R => P y.value) (hr.right.trans (hp'.map _)) rfl h1 ?_
        intro e he
        obtain ⟨y, hy, rfl⟩ := List.mem_map.1 he
        cases hPy : P y.r with
        | false => exact hPy
        | true =>
          have := (hap y hy).2
          rw [h2 _ _ h1 hPy] at this; cases this
      rw [getLeftIter, hh _ hq, getLeftIterBy, getLeftIterBy, look (cmp q) hq hu,
        look (· == x.r) BEq.rfl fun a b h1 h2 => BEq.trans h1 (BEq.symm h2)]

/-- looking up by a `Fin 5` -/
example : demo.getRightBy 0 (fun x => (2 : Fin 5).val == x) = some 10 :=
  (C84_borrowed_lookup demo_reachable demo_shows (2 : Fin 5) (fun _ => 0)).1 (fun q x => q.val == x)
    (fun a _ => by rw [demo_hb]; rfl)
    (fun a b ha hb => beq_iff_eq.2 ((eq_of_beq ha).symm.trans (eq_of_beq hb)))
example : demo.getLeftIterBy 0 (fun x => (10 : Fin 50).val == x) = demo.getLeftIter 10 :=
  ((C84_borrowed_lookup demo_reachable demo_shows (10 : Fin 50) (fun _ => 0)).2 (fun q x => q.val == x)
    (fun a _ => by rw [demo_hb]; rfl)
    (fun a b ha hb => beq_iff_eq.2 ((eq_of_beq ha).symm.trans (eq_of_beq hb)))).2 10 (by simp [demoC]) rfl

end Verif.GroupMap
