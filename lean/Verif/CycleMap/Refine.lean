import Verif.ListLemmas
import Verif.CycleMap.Rep
/-! Every operation of `CycleMap` refines its list-level specification. -/
set_option linter.unusedSectionVars false
set_option linter.unusedSimpArgs false
namespace Verif.CycleMap
open CycleSpec OptionalPair

variable [RawImpl] [LawfulRaw] {L R : Type} [BEq L] [BEq R] [EquivBEq L] [EquivBEq R]

/-- the tables of `m` hold the pairs `c` -/
def Repr (m : CycleMap L R) (c : List (L × R)) : Prop :=
  ∃ ps, Rep m ps ∧ (ps.map Rec.pair).Perm c

variable {m : CycleMap L R} {c : List (L × R)}

theorem Rep.repr {ps} (h : Rep m ps) : Repr m (ps.map Rec.pair) := ⟨ps, h, .refl _⟩

theorem Repr.perm {d} (h : Repr m c) (hp : c.Perm d) : Repr m d := by
  obtain ⟨ps, h1, h2⟩ := h
  exact ⟨ps, h1, h2.trans hp⟩

theorem OneToOne.perm {d : List (L × R)} (h : OneToOne c) (hp : c.Perm d) : OneToOne d :=
  (hp.pairwise_iff (fun {a b} h => ⟨by rw [BEq.comm]; exact h.1, by rw [BEq.comm]; exact h.2⟩)).1 h

theorem Rep.oneToOne {ps} (h : Rep m ps) : OneToOne (ps.map Rec.pair) := by
  simp only [OneToOne, List.pairwise_map]
  exact h.apart.imp fun h => h.2

theorem Repr.oneToOne (h : Repr m c) : OneToOne c := by
  obtain ⟨ps, h1, h2⟩ := h
  exact OneToOne.perm h1.oneToOne h2

/-- what a map looks like at a left item -/
theorem Repr.casesL (h : Repr m c) (l : L) :
    ((∀ q ∈ c, (l == q.1) = false) ∧ ∃ ps, Rep m ps ∧ (ps.map Rec.pair).Perm c ∧ ∀ p ∈ ps, (l == p.l) = false) ∨
    ∃ p ps, Rep m (p :: ps) ∧ c.Perm (p.pair :: ps.map Rec.pair) ∧ (l == p.l) = true ∧
      (∀ q ∈ ps, (l == q.l) = false) := by
  obtain ⟨ps, h1, h2⟩ := h
  rcases h1.casesL l with hn | ⟨p, qs, hq, hr, hl, hn⟩
  · refine .inl ⟨?_, ps, h1, h2, hn⟩
    intro q hq
    obtain ⟨p, hp, rfl⟩ := List.mem_map.1 (h2.mem_iff.2 hq)
    exact hn p hp
  · exact .inr ⟨p, qs, hr, h2.symm.trans (hq.map _), hl, hn⟩

theorem Repr.casesR (h : Repr m c) (r : R) :
    ((∀ q ∈ c, (r == q.2) = false) ∧ ∃ ps, Rep m ps ∧ (ps.map Rec.pair).Perm c ∧ ∀ p ∈ ps, (r == p.r) = false) ∨
    ∃ p ps, Rep m (p :: ps) ∧ c.Perm (p.pair :: ps.map Rec.pair) ∧ (r == p.r) = true ∧
      (∀ q ∈ ps, (r == q.r) = false) := by
  obtain ⟨ps, h1, h2⟩ := h
  rcases h1.casesR r with hn | ⟨p, qs, hq, hr, hl, hn⟩
  · refine .inl ⟨?_, ps, h1, h2, hn⟩
    intro q hq
    obtain ⟨p, hp, rfl⟩ := List.mem_map.1 (h2.mem_iff.2 hq)
    exact hn p hp
  · exact .inr ⟨p, qs, hr, h2.symm.trans (hq.map _), hl, hn⟩

/-! ### Specification side -/

theorem findL_none {l : L} (h : ∀ q ∈ c, (l == q.1) = false) : findL c l = none := by
  simp [findL, List.find?_eq_none]; intro a b hab; simpa using h _ hab

theorem findR_none {r : R} (h : ∀ q ∈ c, (r == q.2) = false) : findR c r = none := by
  simp [findR, List.find?_eq_none]; intro a b hab; simpa using h _ hab

theorem eraseL_none {l : L} (h : ∀ q ∈ c, (l == q.1) = false) : eraseL c l = c :=
  filter_eq_self_of (P := fun p : L × R => l == p.1) h

theorem eraseR_none {r : R} (h : ∀ q ∈ c, (r == q.2) = false) : eraseR c r = c :=
  filter_eq_self_of (P := fun p : L × R => r == p.2) h

section
variable {p : Rec L R} {ps : List (Rec L R)}

theorem findL_some {l : L} (hp : c.Perm (p.pair :: ps.map Rec.pair)) (hl : (l == p.l) = true)
    (hn : ∀ q ∈ ps, (l == q.l) = false) : findL c l = some p.pair :=
  find?_eq_some_of_perm hp hl (forall_mem_map_of hn)

theorem findR_some {r : R} (hp : c.Perm (p.pair :: ps.map Rec.pair)) (hl : (r == p.r) = true)
    (hn : ∀ q ∈ ps, (r == q.r) = false) : findR c r = some p.pair :=
  find?_eq_some_of_perm hp hl (forall_mem_map_of hn)

theorem eraseL_some {l : L} (hp : c.Perm (p.pair :: ps.map Rec.pair)) (hl : (l == p.l) = true)
    (hn : ∀ q ∈ ps, (l == q.l) = false) : (eraseL c l).Perm (ps.map Rec.pair) :=
  filter_perm_tail (P := fun p : L × R => l == p.1) hp hl (forall_mem_map_of hn)

theorem eraseR_some {r : R} (hp : c.Perm (p.pair :: ps.map Rec.pair)) (hl : (r == p.r) = true)
    (hn : ∀ q ∈ ps, (r == q.r) = false) : (eraseR c r).Perm (ps.map Rec.pair) :=
  filter_perm_tail (P := fun p : L × R => r == p.2) hp hl (forall_mem_map_of hn)
end

theorem hasPair_eq (h : OneToOne c) (l : L) (r : R) :
    hasPair c l r = (findL c l).any (fun p => r == p.2) := by
  unfold hasPair findL
  induction c with
  | nil => rfl
  | cons a c ih =>
    have ⟨h1, h2⟩ := List.pairwise_cons.1 h
    rw [List.any_cons, List.find?_cons, ih h2]
    cases hl : l == a.1 with
    | false => simp
    | true =>
      have : List.find? (fun p => l == p.1) c = none := by
        rw [List.find?_eq_none]; intro q hq
        simpa using beq_false_of_left hl (h1 q hq).1
      simp [this]

theorem hasPair_eq' (h : OneToOne c) (l : L) (r : R) :
    hasPair c l r = (findR c r).any (fun p => l == p.1) := by
  unfold hasPair findR
  induction c with
  | nil => rfl
  | cons a c ih =>
    have ⟨h1, h2⟩ := List.pairwise_cons.1 h
    rw [List.any_cons, List.find?_cons, ih h2]
    cases hl : r == a.2 with
    | false => simp
    | true =>
      have : List.find? (fun p => r == p.2) c = none := by
        rw [List.find?_eq_none]; intro q hq
        simpa using beq_false_of_left hl (h1 q hq).2
      simp [this]

theorem findR_eraseL (h : OneToOne c) (l : L) (r : R) :
    findR (eraseL c l) r = if hasPair c l r then none else findR c r := by
  rw [hasPair_eq' h]
  unfold findR eraseL
  induction c with
  | nil => rfl
  | cons a c ih =>
    have ⟨h1, h2⟩ := List.pairwise_cons.1 h
    have hnone : (r == a.2) = true → ∀ c', (∀ q ∈ c', q ∈ c) → List.find? (fun p => r == p.2) c' = none := by
      intro hr c' hc'
      rw [List.find?_eq_none]; intro q hq
      simpa using beq_false_of_left hr (h1 q (hc' q hq)).2
    cases hl : l == a.1 <;> cases hr : r == a.2
    · simp [hl, hr, ih h2]
    · simp [hl, hr]
    · simp [hl, hr, ih h2]
    · simp [hl, hr, hnone hr _ (fun q hq => (List.mem_filter.1 hq).1)]

theorem eraseR_eraseL (l : L) (r : R) :
    eraseR (eraseL c l) r = c.filter fun p => !(l == p.1) && !(r == p.2) := by
  simp [eraseR, eraseL, List.filter_filter, Bool.and_comm]

/-! ### Operations -/

theorem removeViaLeft_refines (h : Repr m c) (l : L) :
    ∃ m', m.removeViaLeft l = .ok (findL c l, m') ∧ Repr m' (eraseL c l) ∧ m'.hb = m.hb ∧
      m'.counter = m.counter := by
  rcases h.casesL l with ⟨hn, ps, hr, hp, hn'⟩ | ⟨p, ps, hr, hp, hl, hn⟩
  · rw [findL_none hn, eraseL_none hn]
    exact ⟨m, removeViaLeft_none hr hn', h, rfl, rfl⟩
  · rw [findL_some hp hl hn]
    obtain ⟨m', h1, h2, h3⟩ := removeViaLeft_some hr hl
    exact ⟨m', h1, h2.repr.perm (eraseL_some hp hl hn).symm, h3⟩

theorem removeViaRight_refines (h : Repr m c) (r : R) :
    ∃ m', m.removeViaRight r = .ok (findR c r, m') ∧ Repr m' (eraseR c r) ∧ m'.hb = m.hb ∧
      m'.counter = m.counter := by
  rcases h.casesR r with ⟨hn, ps, hr, hp, hn'⟩ | ⟨p, ps, hr, hp, hl, hn⟩
  · rw [findR_none hn, eraseR_none hn]
    exact ⟨m, removeViaRight_none hr hn', h, rfl, rfl⟩
  · rw [findR_some hp hl hn]
    obtain ⟨m', h1, h2, h3⟩ := removeViaRight_some hr hl
    exact ⟨m', h1, h2.repr.perm (eraseR_some hp hl hn).symm, h3⟩

theorem mem_eraseL {q : L × R} {l : L} : q ∈ eraseL c l ↔ q ∈ c ∧ (l == q.1) = false := by
  simp [eraseL]

theorem mem_eraseR {q : L × R} {r : R} : q ∈ eraseR c r ↔ q ∈ c ∧ (r == q.2) = false := by
  simp [eraseR]

/-- storing a pair whose items are absent -/
theorem Repr.add (h : Repr m c) {l : L} {r : R} (hl : ∀ q ∈ c, (l == q.1) = false)
    (hr : ∀ q ∈ c, (r == q.2) = false) :
    Repr { m with counter := m.counter + 1,
                  left := m.left.insert (m.hb.hl l) ⟨l, m.hb.hr r, m.counter⟩ (·.hashWith m.hb.hl),
                  right := m.right.insert (m.hb.hr r) ⟨r, m.hb.hl l, m.counter⟩ (·.hashWith m.hb.hr) }
      ((l, r) :: c) := by
  obtain ⟨ps, h1, h2⟩ := h
  have hl' : ∀ p ∈ ps, (l == p.l) = false := fun p hp => hl p.pair (h2.mem_iff.1 (List.mem_map_of_mem hp))
  have hr' : ∀ p ∈ ps, (r == p.r) = false := fun p hp => hr p.pair (h2.mem_iff.1 (List.mem_map_of_mem hp))
  exact ⟨_, h1.add hl' hr', h2.cons _⟩

theorem insert_refines (h : Repr m c) (l : L) (r : R) :
    ∃ m', m.insert l r = .ok ((CycleSpec.insert c l r).1, m') ∧ Repr m' (CycleSpec.insert c l r).2 ∧
      m'.hb = m.hb ∧ m'.counter = m.counter + 1 := by
  obtain ⟨m1, e1, h1, hb1, c1⟩ := removeViaLeft_refines h l
  obtain ⟨m2, e2, h2, hb2, c2⟩ := removeViaRight_refines h1 r
  have := h2.add (l := l) (r := r) (fun q hq => (mem_eraseL.1 (mem_eraseR.1 hq).1).2) (fun q hq => (mem_eraseR.1 hq).2)
  rw [findR_eraseL h.oneToOne] at e2
  rw [eraseR_eraseL] at this
  refine ⟨_, ?_, this, hb2.trans hb1, ?_⟩
  · simp [insert, e1, e2, CycleSpec.insert, bind, Except.bind, pure, Except.pure]
  · simp [c1, c2]

/-! #### Lookups -/

theorem containsLeft_refines (h : Repr m c) (l : L) : m.containsLeft l = c.any fun p => l == p.1 := by
  rcases h.casesL l with ⟨hn, ps, hr, hp, hn'⟩ | ⟨p, ps, hr, hp, hl, hn⟩
  · rw [containsLeft, get_left_none hr hn']
    symm; simpa using hn
  · rw [containsLeft, get_left_some hr hl, any_eq_of_perm hp]
    simp [Rec.pair, hl]

theorem containsRight_refines (h : Repr m c) (r : R) : m.containsRight r = c.any fun p => r == p.2 := by
  rcases h.casesR r with ⟨hn, ps, hr, hp, hn'⟩ | ⟨p, ps, hr, hp, hl, hn⟩
  · rw [containsRight, get_right_none hr hn']
    symm; simpa using hn
  · rw [containsRight, get_right_some hr hl, any_eq_of_perm hp]
    simp [Rec.pair, hl]

theorem getRightBy_none {ps} (h : Rep m ps) {f : L → Bool} (hf : ∀ p ∈ ps, f p.l = false) (x : UInt64) :
    m.getRightBy x f = none := by
  have : m.left.get x (fun y => f y.value) = none := RawTable.get_none (h.noneL (P := fun y => f y.value) hf)
  simp [getRightBy, this]

theorem getLeftBy_none {ps} (h : Rep m ps) {f : R → Bool} (hf : ∀ p ∈ ps, f p.r = false) (x : UInt64) :
    m.getLeftBy x f = none := by
  have : m.right.get x (fun y => f y.value) = none := RawTable.get_none (h.noneR (P := fun y => f y.value) hf)
  simp [getLeftBy, this]

theorem getRightBy_some {p ps} (h : Rep m (p :: ps)) {x : UInt64} {f : L → Bool} (hx : x = m.hb.hl p.l)
    (hf : f p.l = true) (hn : ∀ q ∈ ps, f q.l = false) : m.getRightBy x f = some p.r := by
  have e1 := h.getL (P := fun y => f y.value) hx hf hn
  have e2 := h.getR (hh := m.hb.hr p.r) (P := hashAndId x p.id) rfl
    (by rw [hx]; exact hashAndId_self _ _ _) (h.idsR _)
  simp [getRightBy, e1, toL, e2, toR]

theorem getLeftBy_some {p ps} (h : Rep m (p :: ps)) {x : UInt64} {f : R → Bool} (hx : x = m.hb.hr p.r)
    (hf : f p.r = true) (hn : ∀ q ∈ ps, f q.r = false) : m.getLeftBy x f = some p.l := by
  have e1 := h.getR (P := fun y => f y.value) hx hf hn
  have e2 := h.getL (hh := m.hb.hl p.l) (P := hashAndId x p.id) rfl
    (by rw [hx]; exact hashAndId_self _ _ _) (h.idsL _)
  simp [getLeftBy, e1, toR, e2, toL]

theorem getRight_some {p ps} (h : Rep m (p :: ps)) {l : L} (hl : (l == p.l) = true) : m.getRight l = some p.r :=
  getRightBy_some h (m.hb.hl_congr _ _ hl) hl (h.keysL hl)

theorem getRight_refines (h : Repr m c) (l : L) : m.getRight l = (findL c l).map (·.2) := by
  rcases h.casesL l with ⟨hn, ps, hr, hp, hn'⟩ | ⟨p, ps, hr, hp, hl, hn⟩
  · rw [findL_none hn]; exact getRightBy_none hr hn' _
  · rw [findL_some hp hl hn]; exact getRight_some hr hl

theorem getLeft_refines (h : Repr m c) (r : R) : m.getLeft r = (findR c r).map (·.1) := by
  rcases h.casesR r with ⟨hn, ps, hr, hp, hn'⟩ | ⟨p, ps, hr, hp, hl, hn⟩
  · rw [findR_none hn]; exact getLeftBy_none hr hn' _
  · rw [findR_some hp hl hn]; exact getLeftBy_some hr (m.hb.hr_congr _ _ hl) hl (hr.keysR hl)

theorem arePaired_refines (h : Repr m c) (l : L) (r : R) : m.arePaired l r = hasPair c l r := by
  rw [hasPair_eq h.oneToOne]
  rcases h.casesL l with ⟨hn, ps, hr, hp, hn'⟩ | ⟨p, ps, hr, hp, hl, hn⟩
  · simp [arePaired, get_left_none hr hn', findL_none hn]
  · rw [findL_some hp hl hn]
    have el := m.hb.hl_congr _ _ hl
    cases hrr : r == p.r with
    | true =>
      have er := m.hb.hr_congr _ _ hrr
      simp only [arePaired, get_left_some hr hl, get_right_some hr hrr]
      simp [el, er, Rec.pair, hrr]
    | false =>
      simp only [arePaired, get_left_some hr hl, Rec.pair, Option.any_some, hrr]
      rcases hr.casesR r with hx | ⟨q, qs, hq, hqr, hqe, hqn⟩
      · rw [get_right_none hr hx]
      · rw [get_right_some hqr hqe]
        rcases List.mem_cons.1 (hq.mem_iff.2 (List.mem_cons_self)) with rfl | hm
        · rw [hqe] at hrr; cases hrr
        · have := (hr.tailApart q hm).1
          simp [this]

theorem remove_refines (h : Repr m c) (l : L) (r : R) :
    ∃ m', m.remove l r = .ok (if hasPair c l r then findL c l else none, m') ∧
      Repr m' (if hasPair c l r then eraseL c l else c) ∧ m'.hb = m.hb ∧ m'.counter = m.counter := by
  unfold remove
  rw [arePaired_refines h]
  split
  · exact removeViaLeft_refines h l
  · exact ⟨m, rfl, h, rfl, rfl⟩

/-! #### Swaps -/

theorem swapLeftEqCheck_refines (h : Repr m c) (old new : L) :
    ∃ m', m.swapLeftEqCheck old new (m.hb.hl new) = .ok (if new == old then none else findL c new, m') ∧
      Repr m' (if new == old then c else eraseL c new) ∧ m'.hb = m.hb ∧ m'.counter = m.counter := by
  unfold swapLeftEqCheck
  cases he : new == old with
  | true => simp only [bne, he]; cases m.left.get (m.hb.hl new) (equivalentKey new) <;> exact ⟨m, rfl, h, rfl, rfl⟩
  | false =>
    simp only [bne, he]
    rcases h.casesL new with ⟨hn, ps, hr, hp, hn'⟩ | ⟨p, ps, hr, hp, hl, hn⟩
    · rw [get_left_none hr hn', findL_none hn, eraseL_none hn]
      exact ⟨m, rfl, h, rfl, rfl⟩
    · rw [get_left_some hr hl]
      exact removeViaLeft_refines h new

theorem swapRightEqCheck_refines (h : Repr m c) (old new : R) :
    ∃ m', m.swapRightEqCheck old new (m.hb.hr new) = .ok (if new == old then none else findR c new, m') ∧
      Repr m' (if new == old then c else eraseR c new) ∧ m'.hb = m.hb ∧ m'.counter = m.counter := by
  unfold swapRightEqCheck
  cases he : new == old with
  | true => simp only [bne, he]; cases m.right.get (m.hb.hr new) (equivalentKey new) <;> exact ⟨m, rfl, h, rfl, rfl⟩
  | false =>
    simp only [bne, he]
    rcases h.casesR new with ⟨hn, ps, hr, hp, hn'⟩ | ⟨p, ps, hr, hp, hl, hn⟩
    · rw [get_right_none hr hn', findR_none hn, eraseR_none hn]
      exact ⟨m, rfl, h, rfl, rfl⟩
    · rw [get_right_some hr hl]
      exact removeViaRight_refines h new

theorem Rep.relabelL {p : Rec L R} {ps} {left' : RawTable (MappingPair L)} {right' : RawTable (MappingPair R)}
    {l : L} (h : Rep m (p :: ps)) (hl : left'.entries.Perm (((⟨l, p.r, p.id⟩ : Rec L R) :: ps).map (toL m.hb)))
    (hr : right'.entries.Perm (((⟨l, p.r, p.id⟩ : Rec L R) :: ps).map (toR m.hb)))
    (hn : ∀ q ∈ ps, (l == q.l) = false) : Rep { m with left := left', right := right' } (⟨l, p.r, p.id⟩ :: ps) where
  left := hl
  right := hr
  apart := by
    refine List.pairwise_cons.2 ⟨fun q hq => ?_, (List.pairwise_cons.1 h.apart).2⟩
    have := h.tailApart q hq
    exact ⟨this.1, hn q hq, this.2.2⟩
  bound := by
    intro q hq
    rcases List.mem_cons.1 hq with rfl | hq
    · exact h.bound p (by simp)
    · exact h.bound q (List.mem_cons_of_mem _ hq)

theorem Rep.relabelR {p : Rec L R} {ps} {left' : RawTable (MappingPair L)} {right' : RawTable (MappingPair R)}
    {r : R} (h : Rep m (p :: ps)) (hl : left'.entries.Perm (((⟨p.l, r, p.id⟩ : Rec L R) :: ps).map (toL m.hb)))
    (hr : right'.entries.Perm (((⟨p.l, r, p.id⟩ : Rec L R) :: ps).map (toR m.hb)))
    (hn : ∀ q ∈ ps, (r == q.r) = false) : Rep { m with left := left', right := right' } (⟨p.l, r, p.id⟩ :: ps) where
  left := hl
  right := hr
  apart := by
    refine List.pairwise_cons.2 ⟨fun q hq => ?_, (List.pairwise_cons.1 h.apart).2⟩
    have := h.tailApart q hq
    exact ⟨this.1, this.2.1, hn q hq⟩
  bound := by
    intro q hq
    rcases List.mem_cons.1 hq with rfl | hq
    · exact h.bound p (by simp)
    · exact h.bound q (List.mem_cons_of_mem _ hq)

theorem swapLeft_refines (h : Repr m c) (old new : L) :
    ∃ m', m.swapLeft old new = .ok ((CycleSpec.swapLeft c old new).1, m') ∧
      Repr m' (CycleSpec.swapLeft c old new).2 ∧ m'.hb = m.hb ∧ m'.counter = m.counter := by
  obtain ⟨m1, e1, h1, hb1, c1⟩ := swapLeftEqCheck_refines h old new
  have hfe : ∀ q, findL c old = some q → findL (if new == old then c else eraseL c new) old = some q := by
    intro q hq
    split
    · exact hq
    · rename_i hne
      rcases h.casesL old with ⟨hn, _⟩ | ⟨p, ps, hr, hp, hl, hn⟩
      · rw [findL_none hn] at hq; cases hq
      · rw [findL_some hp hl hn] at hq; cases hq
        have hp2 : (eraseL c new).Perm (p.pair :: eraseL (ps.map Rec.pair) new) := by
          refine (hp.filter _).trans ?_
          rw [List.filter_cons_of_pos]
          · exact .refl _
          · simp only [Bool.not_eq_true', Rec.pair]
            have : (new == p.l) = (new == old) := by rw [BEq.congr_right hl]
            simpa [this] using hne
        refine find?_eq_some_of_perm hp2 hl ?_
        intro q hq
        obtain ⟨q', hq', rfl⟩ := List.mem_map.1 (mem_eraseL.1 hq).1
        exact hn q' hq'
  unfold swapLeft
  rcases h1.casesL old with ⟨hn, ps, hr, hp, hn'⟩ | ⟨p, ps, hr, hp, hl, hn⟩
  · have hnone : findL c old = none := by
      cases hf : findL c old with
      | none => rfl
      | some q => have := hfe q hf; rw [findL_none hn] at this; cases this
    have hc : (if (new == old) = true then c else eraseL c new) = eraseL c new := by
      split
      · rename_i he
        rw [eraseL_none]
        intro q hq
        rw [if_pos he] at hn
        exact beq_false_of_left he (hn q hq)
      · rfl
    refine ⟨m1, ?_, ?_, hb1, c1⟩
    · simp [e1, bind, Except.bind, pure, Except.pure, get_left_none hr hn', CycleSpec.swapLeft, hnone]
    · simp only [CycleSpec.swapLeft, hnone]
      rw [hc] at h1; exact h1
  · have el := m1.hb.hl_congr _ _ hl
    have hf : findL c old = some p.pair := by
      cases hf : findL c old with
      | some q => rw [← hfe q hf]; exact findL_some hp hl hn
      | none =>
        have h3 : p.pair ∈ (if (new == old) = true then c else eraseL c new) := hp.mem_iff.2 (by simp)
        have h4 : p.pair ∈ c := by
          split at h3
          · exact h3
          · exact (mem_eraseL.1 h3).1
        rw [findL, List.find?_eq_none] at hf
        exact absurd hl (hf _ h4)
    obtain ⟨w, hw, hw'⟩ := hr.getMutR (hh := m1.hb.hr p.r) (P := hashAndId (m1.hb.hl old) p.id) rfl
      (by rw [el]; exact hashAndId_self _ _ _) (hr.idsR _)
    obtain ⟨t, ht, ht'⟩ := hr.removeL (hh := m1.hb.hl old) (P := equivalentKey old) el hl (hr.keysL hl)
    have hnew : ∀ q ∈ ps, (new == q.l) = false := by
      intro q hq
      have hmem : q.pair ∈ (if (new == old) = true then c else eraseL c new) :=
        hp.mem_iff.2 (List.mem_cons_of_mem _ (List.mem_map_of_mem hq))
      cases he : new == old with
      | true => exact beq_false_of_left (BEq.trans he hl) (hr.tailApart q hq).2.1
      | false =>
        rw [he] at hmem
        exact (mem_eraseL.1 hmem).2
    refine ⟨{ m1 with left := t.insert (m1.hb.hl new) ⟨new, m1.hb.hr p.r, p.id⟩ (·.hashWith m1.hb.hl),
                      right := w ⟨p.r, m1.hb.hl new, p.id⟩ }, ?_, ?_, hb1, c1⟩
    · rw [← hb1] at e1
      simp [e1, ← hb1, bind, Except.bind, pure, Except.pure, get_left_some hr hl, hw, ht, toR, toL,
        CycleSpec.swapLeft, hf, Rec.pair]
    · have := hr.relabelL (l := new) ((RawTable.insert_perm t _ _ (hashesL ht')).trans (ht'.cons _)) (hw' _) hnew
      refine this.repr.perm ?_
      simp only [CycleSpec.swapLeft, hf, Rec.pair, List.map_cons]
      refine List.Perm.cons _ ?_
      have hfil := (hp.filter fun q => !(old == q.1)).symm
      rw [List.filter_cons_of_neg (by simp [Rec.pair, hl]),
        filter_eq_self_of (P := fun q : L × R => old == q.1) (forall_mem_map_of hn)] at hfil
      refine hfil.trans ?_
      cases he : new == old with
      | true =>
        have : ∀ q : L × R, (new == q.1) = (old == q.1) := fun q => BEq.congr_left he
        simp only [this, Bool.and_self, if_true]; exact .refl _
      | false =>
        simp [eraseL, List.filter_filter]

theorem swapRight_refines (h : Repr m c) (old new : R) :
    ∃ m', m.swapRight old new = .ok ((CycleSpec.swapRight c old new).1, m') ∧
      Repr m' (CycleSpec.swapRight c old new).2 ∧ m'.hb = m.hb ∧ m'.counter = m.counter := by
  obtain ⟨m1, e1, h1, hb1, c1⟩ := swapRightEqCheck_refines h old new
  have hfe : ∀ q, findR c old = some q → findR (if new == old then c else eraseR c new) old = some q := by
    intro q hq
    split
    · exact hq
    · rename_i hne
      rcases h.casesR old with ⟨hn, _⟩ | ⟨p, ps, hr, hp, hl, hn⟩
      · rw [findR_none hn] at hq; cases hq
      · rw [findR_some hp hl hn] at hq; cases hq
        have hp2 : (eraseR c new).Perm (p.pair :: eraseR (ps.map Rec.pair) new) := by
          refine (hp.filter _).trans ?_
          rw [List.filter_cons_of_pos]
          · exact .refl _
          · simp only [Bool.not_eq_true', Rec.pair]
            have : (new == p.r) = (new == old) := by rw [BEq.congr_right hl]
            simpa [this] using hne
        refine find?_eq_some_of_perm hp2 hl ?_
        intro q hq
        obtain ⟨q', hq', rfl⟩ := List.mem_map.1 (mem_eraseR.1 hq).1
        exact hn q' hq'
  unfold swapRight
  rcases h1.casesR old with ⟨hn, ps, hr, hp, hn'⟩ | ⟨p, ps, hr, hp, hl, hn⟩
  · have hnone : findR c old = none := by
      cases hf : findR c old with
      | none => rfl
      | some q => have := hfe q hf; rw [findR_none hn] at this; cases this
    have hc : (if (new == old) = true then c else eraseR c new) = eraseR c new := by
      split
      · rename_i he
        rw [eraseR_none]
        intro q hq
        rw [if_pos he] at hn
        exact beq_false_of_left he (hn q hq)
      · rfl
    refine ⟨m1, ?_, ?_, hb1, c1⟩
    · simp [e1, bind, Except.bind, pure, Except.pure, get_right_none hr hn', CycleSpec.swapRight, hnone]
    · simp only [CycleSpec.swapRight, hnone]
      rw [hc] at h1; exact h1
  · have el := m1.hb.hr_congr _ _ hl
    have hf : findR c old = some p.pair := by
      cases hf : findR c old with
      | some q => rw [← hfe q hf]; exact findR_some hp hl hn
      | none =>
        have h3 : p.pair ∈ (if (new == old) = true then c else eraseR c new) := hp.mem_iff.2 (by simp)
        have h4 : p.pair ∈ c := by
          split at h3
          · exact h3
          · exact (mem_eraseR.1 h3).1
        rw [findR, List.find?_eq_none] at hf
        exact absurd hl (hf _ h4)
    obtain ⟨w, hw, hw'⟩ := hr.getMutL (hh := m1.hb.hl p.l) (P := hashAndId (m1.hb.hr old) p.id) rfl
      (by rw [el]; exact hashAndId_self _ _ _) (hr.idsL _)
    obtain ⟨t, ht, ht'⟩ := hr.removeR (hh := m1.hb.hr old) (P := equivalentKey old) el hl (hr.keysR hl)
    have hnew : ∀ q ∈ ps, (new == q.r) = false := by
      intro q hq
      have hmem : q.pair ∈ (if (new == old) = true then c else eraseR c new) :=
        hp.mem_iff.2 (List.mem_cons_of_mem _ (List.mem_map_of_mem hq))
      cases he : new == old with
      | true => exact beq_false_of_left (BEq.trans he hl) (hr.tailApart q hq).2.2
      | false =>
        rw [he] at hmem
        exact (mem_eraseR.1 hmem).2
    refine ⟨{ m1 with left := w ⟨p.l, m1.hb.hr new, p.id⟩,
                      right := t.insert (m1.hb.hr new) ⟨new, m1.hb.hl p.l, p.id⟩ (·.hashWith m1.hb.hr) }, ?_, ?_, hb1, c1⟩
    · rw [← hb1] at e1
      simp [e1, ← hb1, bind, Except.bind, pure, Except.pure, get_right_some hr hl, hw, ht, toR, toL,
        CycleSpec.swapRight, hf, Rec.pair]
    · have := hr.relabelR (r := new) (hw' _) ((RawTable.insert_perm t _ _ (hashesR ht')).trans (ht'.cons _)) hnew
      refine this.repr.perm ?_
      simp only [CycleSpec.swapRight, hf, Rec.pair, List.map_cons]
      refine List.Perm.cons _ ?_
      have hfil := (hp.filter fun q => !(old == q.2)).symm
      rw [List.filter_cons_of_neg (by simp [Rec.pair, hl]),
        filter_eq_self_of (P := fun q : L × R => old == q.2) (forall_mem_map_of hn)] at hfil
      refine hfil.trans ?_
      cases he : new == old with
      | true =>
        have : ∀ q : L × R, (new == q.2) = (old == q.2) := fun q => BEq.congr_left he
        simp only [this, Bool.and_self, if_true]; exact .refl _
      | false =>
        simp [eraseR, List.filter_filter]

end Verif.CycleMap
