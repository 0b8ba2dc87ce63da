import Verif.PartialMap.Swaps
/-! Construction, capacity, iterators, comparison, extend and clone of `PartialCycleMap`. -/
set_option linter.unusedSectionVars false
set_option linter.unusedSimpArgs false
namespace Verif.PartialMap
open PartialSpec OptionalPair
open CycleMap (eq_false_of_ne_true' beq_false_of_left forall_mem_map_of)

variable [RawImpl] [LawfulRaw] {L R : Type} [BEq L] [BEq R] [EquivBEq L] [EquivBEq R]
variable {m : PartialMap L R} {c : List (OptionalPair L R)}

/-! ### Construction, clear, capacity -/

theorem Rep.nil (hl : m.left.entries = []) (hr : m.right.entries = []) : Rep m [] :=
  ⟨by rw [hl]; exact .refl _, by rw [hr]; exact .refl _, .nil, by simp, by simp⟩

theorem Repr.nil (hl : m.left.entries = []) (hr : m.right.entries = []) : Repr m [] := ⟨[], Rep.nil hl hr, .refl _⟩

theorem withCapacity_repr (n : Nat) (hb : BuildHasher L R) : Repr (withCapacityAndHasher n hb) [] :=
  .nil (RawTable.withCapacity_entries _) (RawTable.withCapacity_entries _)

theorem withHasher_repr (hb : BuildHasher L R) : Repr (withHasher hb) [] := withCapacity_repr 0 hb

theorem Repr.of_tables (h : Repr m c) {left' : RawTable (MappingPair L)} {right' : RawTable (MappingPair R)}
    (hl : left'.entries.Perm m.left.entries) (hr : right'.entries.Perm m.right.entries) :
    Repr { m with left := left', right := right' } c := by
  obtain ⟨ps, h1, h2⟩ := h
  exact ⟨ps, ⟨hl.trans h1.left, hr.trans h1.right, h1.apart, h1.bound, h1.nonempty⟩, h2⟩

theorem clear_refines (m : PartialMap L R) : Repr m.clear [] := .nil (RawTable.clear_entries _) (RawTable.clear_entries _)

theorem shrinkToLeft_refines (h : Repr m c) (n : Nat) : Repr (m.shrinkToLeft n) c :=
  h.of_tables (right' := m.right) (RawTable.shrinkTo_perm _ _ h.hashesL) (.refl _)

theorem shrinkToRight_refines (h : Repr m c) (n : Nat) : Repr (m.shrinkToRight n) c :=
  h.of_tables (left' := m.left) (.refl _) (RawTable.shrinkTo_perm _ _ h.hashesR)

theorem shrinkToFit_refines (h : Repr m c) : Repr m.shrinkToFit c :=
  h.of_tables (RawTable.shrinkTo_perm _ _ h.hashesL) (RawTable.shrinkTo_perm _ _ h.hashesR)

theorem reserveLeft_refines (h : Repr m c) (n : Nat) : Repr (m.reserveLeft n) c :=
  h.of_tables (right' := m.right) (RawTable.reserve_perm _ _ h.hashesL) (.refl _)

theorem reserveRight_refines (h : Repr m c) (n : Nat) : Repr (m.reserveRight n) c :=
  h.of_tables (left' := m.left) (.refl _) (RawTable.reserve_perm _ _ h.hashesR)

theorem tryReserveLeft_refines (h : Repr m c) (n : Nat) (a : Bool) :
    (m.tryReserveLeft n a).1 = a ∧ Repr (m.tryReserveLeft n a).2 c := by
  cases a
  · exact ⟨rfl, h⟩
  · exact ⟨rfl, h.of_tables (right' := m.right) (RawTable.reserve_perm _ _ h.hashesL) (.refl _)⟩

theorem tryReserveRight_refines (h : Repr m c) (n : Nat) (a : Bool) :
    (m.tryReserveRight n a).1 = a ∧ Repr (m.tryReserveRight n a).2 c := by
  cases a
  · exact ⟨rfl, h⟩
  · exact ⟨rfl, h.of_tables (left' := m.left) (.refl _) (RawTable.reserve_perm _ _ h.hashesR)⟩

/-! ### One-sided iterators -/

omit [EquivBEq L] [EquivBEq R] in
theorem tabL_values (hb : BuildHasher L R) (ps : List (Rec L R)) :
    (tabL hb ps).map (·.2.value) = (ps.map Rec.e).filterMap leftOf := by
  simp only [tabL, List.map_filterMap, List.filterMap_map]
  refine congrArg (List.filterMap · ps) (funext fun p => ?_)
  obtain ⟨e, i⟩ := p
  cases e <;> rfl

omit [EquivBEq L] [EquivBEq R] in
theorem tabR_values (hb : BuildHasher L R) (ps : List (Rec L R)) :
    (tabR hb ps).map (·.2.value) = (ps.map Rec.e).filterMap rightOf := by
  simp only [tabR, List.map_filterMap, List.filterMap_map]
  refine congrArg (List.filterMap · ps) (funext fun p => ?_)
  obtain ⟨e, i⟩ := p
  cases e <;> rfl

theorem iterLeft_refines (h : Repr m c) : m.iterLeft.Perm (c.filterMap leftOf) := by
  obtain ⟨ps, h1, h2⟩ := h
  have := h1.left.map (·.2.value)
  rw [tabL_values] at this
  simp only [iterLeft, RawTable.toList, List.map_map]
  exact this.trans (h2.filterMap _)

theorem iterRight_refines (h : Repr m c) : m.iterRight.Perm (c.filterMap rightOf) := by
  obtain ⟨ps, h1, h2⟩ := h
  have := h1.right.map (·.2.value)
  rw [tabR_values] at this
  simp only [iterRight, RawTable.toList, List.map_map]
  exact this.trans (h2.filterMap _)

theorem lenLeft_refines (h : Repr m c) : m.lenLeft = (c.filterMap leftOf).length := by
  rw [← (iterLeft_refines h).length_eq]; simp [lenLeft, iterLeft, RawTable.len, RawTable.toList]

theorem lenRight_refines (h : Repr m c) : m.lenRight = (c.filterMap rightOf).length := by
  rw [← (iterRight_refines h).length_eq]; simp [lenRight, iterRight, RawTable.len, RawTable.toList]

theorem isEmpty_refines (h : Repr m c) : m.isEmpty = c.isEmpty := by
  rw [isEmpty, lenLeft_refines h, lenRight_refines h]
  cases c with
  | nil => rfl
  | cons e c =>
    have := h.oneToOne.2
    cases e <;> simp_all [leftOf, rightOf]

/-! ### iter -/

omit [EquivBEq L] [EquivBEq R] in
theorem toL_isSome {hb : BuildHasher L R} {p : Rec L R} : (toL hb p).isSome = (leftOf p.e).isSome := by
  obtain ⟨e, i⟩ := p; cases e <;> rfl

omit [EquivBEq L] [EquivBEq R] in
theorem toR_isSome {hb : BuildHasher L R} {p : Rec L R} : (toR hb p).isSome = (rightOf p.e).isSome := by
  obtain ⟨e, i⟩ := p; cases e <;> rfl

omit [EquivBEq L] [EquivBEq R] in
theorem toL_none {hb : BuildHasher L R} {p : Rec L R} : toL hb p = none ↔ leftOf p.e = none := by
  obtain ⟨e, i⟩ := p; cases e <;> simp [toL, leftOf]

omit [EquivBEq L] [EquivBEq R] in
theorem toR_none {hb : BuildHasher L R} {p : Rec L R} : toR hb p = none ↔ rightOf p.e = none := by
  obtain ⟨e, i⟩ := p; cases e <;> simp [toR, rightOf]

/-- list the records with a left item in the order of the left table, then the other records -/
theorem Repr.ordered (h : Repr m c) :
    ∃ qs us, ((qs ++ us).map Rec.e).Perm c ∧ Rep m (qs ++ us) ∧ m.left.entries = tabL m.hb qs ∧
      (∀ q ∈ qs, (leftOf q.e).isSome = true) ∧ ∀ u ∈ us, leftOf u.e = none := by
  obtain ⟨ps, h1, h2⟩ := h
  obtain ⟨qs, us, hq, he, hs, hn⟩ := perm_filterMap_inv h1.left
  exact ⟨qs, us, (hq.map _).symm.trans h2, h1.perm hq, he, fun q hm => by rw [← toL_isSome (hb := m.hb)]; exact hs q hm,
    fun u hu => toL_none.1 (hn u hu)⟩

/-- the elements an iteration over these records walks through -/
def elemsL (hb : BuildHasher L R) (qs : List (Rec L R)) : List (MappingPair L) := (tabL hb qs).map (·.2)

omit [EquivBEq L] [EquivBEq R] in
theorem elemsL_cons {hb : BuildHasher L R} {q : Rec L R} {qs x} (h : toL hb q = some x) :
    elemsL hb (q :: qs) = x.2 :: elemsL hb qs := by
  simp [elemsL, tabL, List.filterMap_cons_some h]

theorem Rep.getRight_mem {ps} (h : Rep m ps) {p} (hp : p ∈ ps) {a : L} (ha : leftOf p.e = some a) :
    m.getRight a = rightOf p.e := by
  obtain ⟨qs, hq⟩ := perm_cons_of_mem hp
  exact getRight_some (h.perm hq) (by rw [hasL_eq ha]; exact BEq.rfl)

theorem Rep.getLeftInner_mem {ps} (h : Rep m ps) {p} (hp : p ∈ ps) {a : L} (ha : leftOf p.e = some a) :
    ∃ x, toL m.hb p = some x ∧ m.getLeftInner a = some x.2 := by
  obtain ⟨qs, hq⟩ := perm_cons_of_mem hp
  exact (h.perm hq).get_left_some (by rw [hasL_eq ha]; exact BEq.rfl)

theorem Rep.getRightInner_mem {ps} (h : Rep m ps) {p} (hp : p ∈ ps) {a : R} (ha : rightOf p.e = some a) :
    ∃ x, toR m.hb p = some x ∧ m.getRightInner a = some x.2 := by
  obtain ⟨qs, hq⟩ := perm_cons_of_mem hp
  exact (h.perm hq).get_right_some (by rw [hasR_eq ha]; exact BEq.rfl)

omit [EquivBEq L] [EquivBEq R] in
theorem ofPair_of {e : OptionalPair L R} : ofPair (leftOf e, rightOf e) = e := by cases e <;> rfl

omit [EquivBEq L] [EquivBEq R] in
theorem exists_toL {hb : BuildHasher L R} {q : Rec L R} (h : (leftOf q.e).isSome = true) : ∃ x, toL hb q = some x :=
  Option.isSome_iff_exists.1 (by rw [toL_isSome]; exact h)

omit [EquivBEq L] [EquivBEq R] in
theorem exists_toR {hb : BuildHasher L R} {q : Rec L R} (h : (rightOf q.e).isSome = true) : ∃ x, toR hb q = some x :=
  Option.isSome_iff_exists.1 (by rw [toR_isSome]; exact h)

theorem Rep.next_cons {ps} (h : Rep m ps) {q} (hq : q ∈ ps) {x} (hx : toL m.hb q = some x)
    (rest : List (MappingPair L)) : Iter.next ⟨x.2 :: rest⟩ m = some (q.e, ⟨rest⟩) := by
  have hl := (toL_some hx).2.1
  simp only [Iter.next, h.getRight_mem hq hl, ← hl, ofPair_of]

theorem Rep.collect {ps} (h : Rep m ps) {qs} (hq : ∀ q ∈ qs, q ∈ ps) (hs : ∀ q ∈ qs, (leftOf q.e).isSome = true) :
    Iter.collect m (elemsL m.hb qs) = qs.map Rec.e := by
  induction qs with
  | nil => rfl
  | cons q qs ih =>
    have ih := ih (fun x hx => hq x (List.mem_cons_of_mem _ hx)) (fun x hx => hs x (List.mem_cons_of_mem _ hx))
    obtain ⟨x, hx⟩ := exists_toL (hb := m.hb) (hs q (by simp))
    rw [elemsL_cons hx, Iter.collect, h.next_cons (hq q (by simp)) hx, ih]
    rfl

omit [EquivBEq L] [EquivBEq R] in
theorem iter_todo {qs} (he : m.left.entries = tabL m.hb qs) : m.iter.todo = elemsL m.hb qs := by
  simp [iter, RawTable.toList, he, elemsL]

omit [EquivBEq L] [EquivBEq R] in
theorem filter_left {qs us : List (Rec L R)} (hs : ∀ q ∈ qs, (leftOf q.e).isSome = true)
    (hn : ∀ u ∈ us, leftOf u.e = none) : ((qs ++ us).map Rec.e).filter (fun e => (leftOf e).isSome) = qs.map Rec.e := by
  rw [List.map_append, List.filter_append, List.filter_eq_self.2, List.filter_eq_nil_iff.2, List.append_nil]
  · intro e he
    obtain ⟨u, hu, rfl⟩ := List.mem_map.1 he
    simp [hn u hu]
  · intro e he
    obtain ⟨u, hu, rfl⟩ := List.mem_map.1 he
    exact hs u hu

theorem iterList_refines (h : Repr m c) : m.iterList.Perm (c.filter fun e => (leftOf e).isSome) := by
  obtain ⟨qs, us, hp, hr, he, hs, hn⟩ := h.ordered
  rw [iterList, iter_todo he, hr.collect (fun q hq => List.mem_append_left _ hq) hs]
  rw [← filter_left hs hn]
  exact hp.filter _

/-! ### iter_paired -/

/-- the pairs of a list of records -/
def pairsOf (qs : List (Rec L R)) : List (L × R) := qs.filterMap fun q => pairOf q.e

theorem Rep.getVia {ps} (h : Rep m ps) {q : Rec L R} (hq : q ∈ ps) {a : L} {b : R} (he : q.e = someBoth a b) :
    m.getViaHashesAndId (m.hb.hl a) (m.hb.hr b) q.id = .ok (some (a, b)) := by
  obtain ⟨qs, hqs⟩ := perm_cons_of_mem hq
  have h' := h.perm hqs
  obtain ⟨e, i⟩ := q
  cases he
  have e1 := RawTable.get_some (p := hashAndId (m.hb.hr b) i) (h := m.hb.hl a) (h'.consL rfl) rfl (hashAndId_self _ _ _) (hidsL _ h'.ids)
  have e2 := RawTable.get_some (p := hashAndId (m.hb.hl a) i) (h := m.hb.hr b) (h'.consR rfl) rfl (hashAndId_self _ _ _) (hidsR _ h'.ids)
  simp [getViaHashesAndId, e1, e2]

theorem Rep.pairedNext {ps} (h : Rep m ps) {qs} (hq : ∀ q ∈ qs, q ∈ ps) (hs : ∀ q ∈ qs, (leftOf q.e).isSome = true) :
    ∃ qs1 qs2 o, qs = qs1 ++ qs2 ∧ PairedIter.next m (elemsL m.hb qs) = .ok (o, elemsL m.hb qs2) ∧
      ((o = none ∧ pairsOf qs1 = [] ∧ qs2 = []) ∨ ∃ p, o = some p ∧ pairsOf qs1 = [p]) := by
  induction qs with
  | nil => exact ⟨[], [], none, rfl, rfl, .inl ⟨rfl, rfl, rfl⟩⟩
  | cons q qs ih =>
    obtain ⟨x, hx⟩ := exists_toL (hb := m.hb) (hs q (by simp))
    have hqm := hq q (by simp)
    rw [elemsL_cons hx]
    obtain ⟨e, i⟩ := q
    cases e with
    | neither => cases hx
    | someRight => cases hx
    | someLeft a =>
      cases hx
      obtain ⟨qs1, qs2, o, h1, h2, h3⟩ := ih (fun x hx => hq x (List.mem_cons_of_mem _ hx)) (fun x hx => hs x (List.mem_cons_of_mem _ hx))
      refine ⟨_ :: qs1, qs2, o, by rw [h1]; rfl, ?_, ?_⟩
      · rw [← h2]; rfl
      · simpa [pairsOf, pairOf] using h3
    | someBoth a b =>
      cases hx
      refine ⟨[⟨someBoth a b, i⟩], qs, some (a, b), rfl, ?_, .inr ⟨_, rfl, rfl⟩⟩
      simp [PairedIter.next, h.getVia hqm rfl, bind, Except.bind, pure, Except.pure]

theorem Rep.pairedTake {ps} (h : Rep m ps) (n : Nat) {qs} (hq : ∀ q ∈ qs, q ∈ ps)
    (hs : ∀ q ∈ qs, (leftOf q.e).isSome = true) :
    ∃ qs1 qs2, qs = qs1 ++ qs2 ∧ PairedIter.take m n ⟨elemsL m.hb qs⟩ = .ok (pairsOf qs1, ⟨elemsL m.hb qs2⟩) ∧
      (pairsOf qs1).length ≤ n ∧ ((pairsOf qs1).length = n ∨ qs2 = []) := by
  induction n generalizing qs with
  | zero => exact ⟨[], qs, rfl, rfl, Nat.le_refl _, .inl rfl⟩
  | succ n ih =>
    obtain ⟨a1, a2, o, h1, h2, h3⟩ := h.pairedNext hq hs
    subst h1
    rcases h3 with ⟨rfl, hnil, rfl⟩ | ⟨p, rfl, hone⟩
    · refine ⟨a1, [], rfl, ?_, by simp [hnil], .inr rfl⟩
      simp only [PairedIter.take, h2, bind, Except.bind, hnil]; rfl
    · obtain ⟨b1, b2, h4, h5, h6, h7⟩ := ih (qs := a2) (fun x hx => hq x (List.mem_append_right _ hx)) (fun x hx => hs x (List.mem_append_right _ hx))
      subst h4
      have : pairsOf (a1 ++ b1) = p :: pairsOf b1 := by
        have := hone; simp only [pairsOf] at this ⊢; rw [List.filterMap_append, this]; rfl
      refine ⟨a1 ++ b1, b2, by simp, ?_, ?_, ?_⟩
      · simp only [PairedIter.take, h2, bind, Except.bind, h5, this]; rfl
      · rw [this]; simp; exact h6
      · rw [this]; simpa using h7

omit [EquivBEq L] [EquivBEq R] in
theorem pairsOf_length (qs : List (Rec L R)) : (pairsOf qs).length ≤ qs.length := List.length_filterMap_le _ _

omit [EquivBEq L] [EquivBEq R] in
theorem elemsL_length {hb : BuildHasher L R} {qs : List (Rec L R)} (hs : ∀ q ∈ qs, (leftOf q.e).isSome = true) :
    (elemsL hb qs).length = qs.length := by
  induction qs with
  | nil => rfl
  | cons q qs ih =>
    obtain ⟨x, hx⟩ := exists_toL (hb := hb) (hs q (by simp))
    rw [elemsL_cons hx, List.length_cons, ih fun x hx => hs x (List.mem_cons_of_mem _ hx), List.length_cons]

theorem Rep.pairedAll {ps} (h : Rep m ps) {n : Nat} {qs} (hq : ∀ q ∈ qs, q ∈ ps)
    (hs : ∀ q ∈ qs, (leftOf q.e).isSome = true) (hn : qs.length < n) :
    PairedIter.take m n ⟨elemsL m.hb qs⟩ = .ok (pairsOf qs, ⟨[]⟩) := by
  obtain ⟨a1, a2, h1, h2, h3, h4⟩ := h.pairedTake n hq hs
  have : a2 = [] := by
    rcases h4 with h4 | h4
    · have := pairsOf_length a1; rw [h1] at hn; simp at hn; omega
    · exact h4
  subst this
  simp at h1; subst h1
  exact h2

theorem iterPairedList_eq {qs us} (hr : Rep m (qs ++ us)) (he : m.left.entries = tabL m.hb qs)
    (hs : ∀ q ∈ qs, (leftOf q.e).isSome = true) : m.iterPairedList = .ok (pairsOf qs) := by
  have h0 : m.iterPaired = ⟨elemsL m.hb qs⟩ := by simp [iterPaired, RawTable.toList, he, elemsL]
  have h1 : m.left.len = qs.length := by
    rw [← elemsL_length (hb := m.hb) hs]; simp [RawTable.len, he, elemsL]
  rw [iterPairedList, h0, hr.pairedAll (fun q hq => List.mem_append_left _ hq) hs (by omega)]
  rfl

omit [EquivBEq L] [EquivBEq R] in
theorem pairsOf_perm {qs us : List (Rec L R)} (hp : ((qs ++ us).map Rec.e).Perm c)
    (hn : ∀ u ∈ us, leftOf u.e = none) : (pairsOf qs).Perm (c.filterMap pairOf) := by
  have h2 : pairsOf us = [] := by
    rw [pairsOf, List.filterMap_eq_nil_iff]
    intro u hu
    have := hn u hu
    revert this
    cases u.e <;> simp [leftOf, pairOf]
  have h3 : pairsOf (qs ++ us) = pairsOf qs := by
    have := h2; simp only [pairsOf] at this ⊢; rw [List.filterMap_append, this, List.append_nil]
  rw [← h3]
  have := hp.filterMap pairOf
  rwa [List.filterMap_map] at this

theorem iterPairedList_refines (h : Repr m c) : ∃ ps, m.iterPairedList = .ok ps ∧ ps.Perm (c.filterMap pairOf) := by
  obtain ⟨qs, us, hp, hr, he, hs, hn⟩ := h.ordered
  exact ⟨_, iterPairedList_eq hr he hs, pairsOf_perm hp hn⟩

/-! ### iter_unpaired -/

/-- what an `UnpairedIter` still yields -/
def UnpairedIter.future (it : UnpairedIter L R) : List (OptionalPair L R) :=
  (it.todoL.filterMap fun l => if l.hash.isSome then none else some (someLeft l.value)) ++
  (it.todoR.filterMap fun r => if r.hash.isSome then none else some (someRight r.value))

omit [EquivBEq L] [EquivBEq R] in
theorem UnpairedIter.nextR_eq (rs : List (MappingPair R)) :
    (UnpairedIter.nextR rs = (none : Option (OptionalPair L R × UnpairedIter L R)) ∧
      (UnpairedIter.future ⟨[], rs⟩ : List (OptionalPair L R)) = []) ∨
    ∃ o it', UnpairedIter.nextR rs = some (o, it') ∧
      (UnpairedIter.future ⟨[], rs⟩ : List (OptionalPair L R)) = o :: UnpairedIter.future it' := by
  induction rs with
  | nil => exact .inl ⟨rfl, rfl⟩
  | cons r rs ih =>
    obtain ⟨v, ho, i⟩ := r
    cases ho with
    | none => exact .inr ⟨_, _, rfl, rfl⟩
    | some x => exact ih

omit [EquivBEq L] [EquivBEq R] in
theorem UnpairedIter.next_eq (ls : List (MappingPair L)) (rs : List (MappingPair R)) :
    (UnpairedIter.next rs ls = none ∧ UnpairedIter.future ⟨ls, rs⟩ = []) ∨
    ∃ o it', UnpairedIter.next rs ls = some (o, it') ∧
      UnpairedIter.future ⟨ls, rs⟩ = o :: UnpairedIter.future it' := by
  induction ls with
  | nil => exact UnpairedIter.nextR_eq rs
  | cons l ls ih =>
    obtain ⟨v, ho, i⟩ := l
    cases ho with
    | none => exact .inr ⟨_, _, rfl, rfl⟩
    | some x => exact ih

omit [EquivBEq L] [EquivBEq R] in
theorem UnpairedIter.take_eq (n : Nat) (it : UnpairedIter L R) :
    (UnpairedIter.take n it).1 = it.future.take n ∧ (UnpairedIter.take n it).2.future = it.future.drop n := by
  induction n generalizing it with
  | zero => exact ⟨rfl, rfl⟩
  | succ n ih =>
    obtain ⟨ls, rs⟩ := it
    rcases UnpairedIter.next_eq ls rs with ⟨h1, h2⟩ | ⟨o, it', h1, h2⟩
    · simp [UnpairedIter.take, h1, h2]; rfl
    · simp [UnpairedIter.take, h1, h2, ih it']

omit [EquivBEq L] [EquivBEq R] in
theorem UnpairedIter.future_length (it : UnpairedIter L R) : it.future.length ≤ it.todoL.length + it.todoR.length := by
  simp only [UnpairedIter.future, List.length_append]
  have h1 := List.length_filterMap_le (fun l : MappingPair L => if l.hash.isSome then none else some (someLeft l.value : OptionalPair L R)) it.todoL
  have h2 := List.length_filterMap_le (fun r : MappingPair R => if r.hash.isSome then none else some (someRight r.value : OptionalPair L R)) it.todoR
  omega

omit [EquivBEq L] [EquivBEq R] in
theorem iterUnpairedList_eq (m : PartialMap L R) : m.iterUnpairedList = m.iterUnpaired.future := by
  rw [iterUnpairedList, (UnpairedIter.take_eq _ _).1, List.take_of_length_le]
  have := UnpairedIter.future_length m.iterUnpaired
  simp only [iterUnpaired, RawTable.toList, List.length_map] at this ⊢
  exact Nat.le_succ_of_le this

/-- the lone items of these records, left ones first -/
def loneL (q : Rec L R) : Bool := match q.e with | someLeft _ => true | _ => false
def loneR (q : Rec L R) : Bool := match q.e with | someRight _ => true | _ => false

omit [EquivBEq L] [EquivBEq R] in
theorem futureL_eq (hb : BuildHasher L R) (ps : List (Rec L R)) :
    ((tabL hb ps).map (·.2)).filterMap (fun l => if l.hash.isSome then none else some (someLeft l.value : OptionalPair L R)) =
      (ps.filter loneL).map Rec.e := by
  induction ps with
  | nil => rfl
  | cons p ps ih =>
    obtain ⟨e, i⟩ := p
    cases e <;> first | exact ih | exact congrArg (_ :: ·) ih

omit [EquivBEq L] [EquivBEq R] in
theorem futureR_eq (hb : BuildHasher L R) (ps : List (Rec L R)) :
    ((tabR hb ps).map (·.2)).filterMap (fun r => if r.hash.isSome then none else some (someRight r.value : OptionalPair L R)) =
      (ps.filter loneR).map Rec.e := by
  induction ps with
  | nil => rfl
  | cons p ps ih =>
    obtain ⟨e, i⟩ := p
    cases e <;> first | exact ih | exact congrArg (_ :: ·) ih

omit [EquivBEq L] [EquivBEq R] in
theorem lone_perm {ps : List (Rec L R)} (hne : ∀ p ∈ ps, p.e ≠ neither) :
    ((ps.filter loneL).map Rec.e ++ (ps.filter loneR).map Rec.e).Perm ((ps.map Rec.e).filter fun e => !isPair e) := by
  induction ps with
  | nil => exact .refl _
  | cons p ps ih =>
    have ih := ih fun x hx => hne x (List.mem_cons_of_mem _ hx)
    have hp := hne p (by simp)
    obtain ⟨e, i⟩ := p
    cases e with
    | neither => exact absurd rfl hp
    | someLeft a => exact ih.cons (someLeft a)
    | someRight a =>
      simp only [List.map_cons, List.filter_cons, loneL, loneR, isPair]
      exact List.perm_middle.trans (ih.cons _)
    | someBoth a b => exact ih

theorem iterUnpairedList_refines (h : Repr m c) : m.iterUnpairedList.Perm (c.filter fun e => !isPair e) := by
  obtain ⟨ps, h1, h2⟩ := h
  rw [iterUnpairedList_eq]
  have e1 := ((h1.left.map (·.2)).filterMap fun l => if l.hash.isSome then none else some (someLeft l.value : OptionalPair L R))
  have e2 := ((h1.right.map (·.2)).filterMap fun r => if r.hash.isSome then none else some (someRight r.value : OptionalPair L R))
  rw [futureL_eq] at e1
  rw [futureR_eq] at e2
  exact (e1.append e2).trans ((lone_perm h1.nonempty).trans (h2.filter _))

/-- everything the API shows -/
theorem Repr.shows (h : Repr m c) : Shows m c where
  oneToOne := h.oneToOne
  iter := iterList_refines h
  iterPaired := iterPairedList_refines h
  iterUnpaired := iterUnpairedList_refines h
  iterLeft := iterLeft_refines h
  iterRight := iterRight_refines h
  lenLeft := lenLeft_refines h
  lenRight := lenRight_refines h
  isEmpty := isEmpty_refines h
  getRight := getRight_refines h
  getLeft := getLeft_refines h
  containsLeft := containsLeft_refines h
  containsRight := containsRight_refines h
  isLeftPaired := isLeftPaired_refines h
  isRightPaired := isRightPaired_refines h
  arePaired := arePaired_refines h

/-! ### Comparison, extend, clone -/

/-- the check `eq` makes for one entry -/
def eqCheck (d : List (OptionalPair L R)) : OptionalPair L R → Bool
  | someLeft l => ((findL d l).bind rightOf).isNone
  | someRight r => ((findR d r).bind leftOf).isNone
  | someBoth l r => hasPair d l r
  | neither => true

theorem eqAll_refines {other : PartialMap L R} {d : List (OptionalPair L R)} (h' : Repr other d)
    {es : List (OptionalPair L R)} (hn : neither ∉ es) : eqAll other es = .ok (es.all (eqCheck d)) := by
  induction es with
  | nil => rfl
  | cons e es ih =>
    have he : eqEntry other e = .ok (eqCheck d e) := by
      cases e with
      | neither => exact absurd List.mem_cons_self hn
      | someLeft l => simp [eqEntry, eqCheck, getRight_refines h']
      | someRight l => simp [eqEntry, eqCheck, getLeft_refines h']
      | someBoth l r => simp [eqEntry, eqCheck, arePaired_refines h']
    have ih := ih fun hx => hn (List.mem_cons_of_mem _ hx)
    simp only [eqAll, he, bind, Except.bind, ih, List.all_cons]
    cases eqCheck d e <;> rfl

theorem eq_refines {other : PartialMap L R} {d : List (OptionalPair L R)} (h : Repr m c) (h' : Repr other d) :
    m.eq other = .ok (!((c.filterMap leftOf).length != (d.filterMap leftOf).length &&
        (c.filterMap rightOf).length != (d.filterMap rightOf).length) &&
      (c.filter fun e => (leftOf e).isSome).all (eqCheck d)) := by
  have hp := iterList_refines h
  have hn : neither ∉ m.iterList := fun hx => h.oneToOne.2 (List.mem_filter.1 (hp.mem_iff.1 hx)).1
  rw [eq, lenLeft_refines h, lenLeft_refines h', lenRight_refines h, lenRight_refines h', eqAll_refines h' hn,
    all_eq_of_perm hp]
  split
  · rename_i hc; rw [hc]; rfl
  · rename_i hc
    rw [Bool.not_eq_true] at hc
    rw [hc]; rfl

theorem extendPairs_refines (h : Repr m c) (xs : List (L × R)) :
    ∃ m', m.extendPairs xs = .ok m' ∧ Repr m' (insertAll c (xs.map fun p => someBoth p.1 p.2)) ∧ m'.hb = m.hb ∧
      m'.counter = m.counter + xs.length := by
  induction xs generalizing m c with
  | nil => exact ⟨m, rfl, h, rfl, rfl⟩
  | cons x xs ih =>
    obtain ⟨m1, e1, h1, hb1, c1⟩ := insert_refines h x.1 x.2
    obtain ⟨m2, e2, h2, hb2, c2⟩ := ih h1
    refine ⟨m2, ?_, h2, hb2.trans hb1, ?_⟩
    · simp only [extendPairs, e1, bind, Except.bind]; exact e2
    · rw [c2, c1]; simp; omega

theorem extend_refines (h : Repr m c) (xs : List (OptionalPair L R)) :
    ∃ m', m.extend xs = .ok m' ∧ Repr m' (insertAll c xs) ∧ m'.hb = m.hb ∧ m'.counter ≤ m.counter + xs.length := by
  induction xs generalizing m c with
  | nil => exact ⟨m, rfl, h, rfl, Nat.le_refl _⟩
  | cons x xs ih =>
    cases x with
    | neither =>
      obtain ⟨m2, e2, h2, hb2, c2⟩ := ih h
      exact ⟨m2, e2, h2, hb2, Nat.le_trans c2 (by simp)⟩
    | someLeft l =>
      obtain ⟨m1, e1, h1, hb1, c1⟩ := insertLeft_refines h l
      obtain ⟨m2, e2, h2, hb2, c2⟩ := ih h1
      refine ⟨m2, ?_, h2, hb2.trans hb1, ?_⟩
      · simp only [extend, e1, bind, Except.bind]; exact e2
      · rw [c1] at c2; simp; omega
    | someRight r =>
      obtain ⟨m1, e1, h1, hb1, c1⟩ := insertRight_refines h r
      obtain ⟨m2, e2, h2, hb2, c2⟩ := ih h1
      refine ⟨m2, ?_, h2, hb2.trans hb1, ?_⟩
      · simp only [extend, e1, bind, Except.bind]; exact e2
      · rw [c1] at c2; simp; omega
    | someBoth l r =>
      obtain ⟨m1, e1, h1, hb1, c1⟩ := insert_refines h l r
      obtain ⟨m2, e2, h2, hb2, c2⟩ := ih h1
      refine ⟨m2, ?_, h2, hb2.trans hb1, ?_⟩
      · simp only [extend, e1, bind, Except.bind]; exact e2
      · rw [c1] at c2; simp; omega

/-- the clone of an entry, under the same identifier -/
def cloneRec (cl : L → L) (cr : R → R) (p : Rec L R) : Rec L R := ⟨mapEntry cl cr p.e, p.id⟩

theorem tabL_clone {hb : BuildHasher L R} {cl : L → L} {cr : R → R} (hl : ∀ x, (cl x == x) = true)
    (hr : ∀ x, (cr x == x) = true) (ps : List (Rec L R)) :
    (tabL hb ps).map (fun e => (e.1, MappingPair.clone cl e.2)) = tabL hb (ps.map (cloneRec cl cr)) := by
  have hbl : ∀ x, hb.hl (cl x) = hb.hl x := fun x => hb.hl_congr _ _ (hl x)
  have hbr : ∀ x, hb.hr (cr x) = hb.hr x := fun x => hb.hr_congr _ _ (hr x)
  simp only [tabL, List.map_filterMap, List.filterMap_map]
  refine congrArg (List.filterMap · ps) (funext fun p => ?_)
  obtain ⟨e, i⟩ := p
  cases e <;> simp [toL, cloneRec, mapEntry, MappingPair.clone, hbl, hbr]

theorem Rep.clone {ps : List (Rec L R)} (h1 : Rep m ps) {cl : L → L} {cr : R → R} (hl : ∀ x, (cl x == x) = true)
    (hr : ∀ x, (cr x == x) = true) : Rep (m.clone cl cr) (ps.map (cloneRec cl cr)) := by
  have hbr : ∀ x, m.hb.hr (cr x) = m.hb.hr x := fun x => m.hb.hr_congr _ _ (hr x)
  have hbl : ∀ x, m.hb.hl (cl x) = m.hb.hl x := fun x => m.hb.hl_congr _ _ (hl x)
  refine ⟨?_, ?_, ?_, ?_, ?_⟩
  · exact (h1.left.map _).trans (.of_eq (tabL_clone hl hr ps))
  · refine (h1.right.map _).trans (.of_eq ?_)
    simp only [tabR, List.map_filterMap, List.filterMap_map]
    refine congrArg (List.filterMap · ps) (funext fun p => ?_)
    obtain ⟨e, i⟩ := p
    cases e <;> simp [PartialMap.clone, toR, cloneRec, mapEntry, MappingPair.clone, hbl, hbr]
  · rw [List.pairwise_map]
    refine h1.apart.imp fun {a b} hab => ⟨hab.1, ?_⟩
    obtain ⟨_, hab⟩ := hab
    obtain ⟨e, i⟩ := a
    obtain ⟨f, j⟩ := b
    cases e <;> cases f <;> simp_all [cloneRec, mapEntry, Disj, leftOf, rightOf, hasL, hasR, BEq.congr_left (hl _), BEq.congr_right (hl _), BEq.congr_left (hr _), BEq.congr_right (hr _)]
  · intro p hp
    obtain ⟨q, hq, rfl⟩ := List.mem_map.1 hp
    exact h1.bound q hq
  · intro p hp
    obtain ⟨q, hq, rfl⟩ := List.mem_map.1 hp
    have := h1.nonempty q hq
    obtain ⟨e, i⟩ := q
    cases e <;> simp_all [cloneRec, mapEntry]

theorem clone_refines (h : Repr m c) {cl : L → L} {cr : R → R} (hl : ∀ x, (cl x == x) = true)
    (hr : ∀ x, (cr x == x) = true) : Repr (m.clone cl cr) (c.map (mapEntry cl cr)) := by
  obtain ⟨ps, h1, h2⟩ := h
  refine ⟨_, h1.clone hl hr, .trans ?_ (h2.map (mapEntry cl cr))⟩
  simp [cloneRec, Function.comp_def]

end Verif.PartialMap
