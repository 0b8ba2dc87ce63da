import Verif.PartialMap.Iterate
import Verif.CycleMap.Iterate
/-! `drain`, `drain_filter` and the `retain` family of `PartialCycleMap`. -/
set_option linter.unusedSectionVars false
set_option linter.unusedSimpArgs false
namespace Verif.PartialMap
open PartialSpec OptionalPair
open CycleSpec (split)
open CycleMap (eq_false_of_ne_true' beq_false_of_left forall_mem_map_of split_perm split_append)

variable [RawImpl] [LawfulRaw] {L R : Type} [BEq L] [BEq R] [EquivBEq L] [EquivBEq R]
variable {m : PartialMap L R} {c : List (OptionalPair L R)}

theorem pairwise_perm {ps qs : List (Rec L R)} (h : ps.Pairwise Apart) (hp : ps.Perm qs) : qs.Pairwise Apart :=
  (hp.pairwise_iff (fun h => h.symm)).1 h

omit [EquivBEq L] [EquivBEq R] in
/-- removing the right entry of a pair by its id -/
theorem removeR_justId {hb : BuildHasher L R} {t : RawTable (MappingPair R)} {a : L} {b : R} {i : Nat} {qs}
    (ht : t.entries.Perm (tabR hb (⟨someBoth a b, i⟩ :: qs))) (ha : (⟨someBoth a b, i⟩ :: qs : List (Rec L R)).Pairwise (·.id ≠ ·.id)) :
    ∃ t', t.removeEntry (hb.hr b) (justId i) = some (⟨b, some (hb.hl a), i⟩, t') ∧ t'.entries.Perm (tabR hb qs) :=
  RawTable.removeEntry_some ht rfl (justId_self _ _ _) (idsR fun q hq => (List.pairwise_cons.1 ha).1 q hq)

/-! ### drain -/

omit [EquivBEq L] [EquivBEq R] in
/-- the right entries when the left ones are used up -/
theorem drain_end (k : Nat) (t : RawTable (MappingPair R)) :
    ∃ t' : RawTable (MappingPair R), t'.entries = [] ∧
      DrainIter.take (L := L) (k + 1) ⟨[], t⟩ =
        .ok ((t.toList.head?.map fun r => (someRight r.value : OptionalPair L R)).toList, ⟨[], t'⟩) := by
  cases ht : t.toList with
  | nil =>
    refine ⟨t.clear, RawTable.clear_entries _, ?_⟩
    simp only [DrainIter.take, DrainIter.next, ht, bind, Except.bind, List.head?_nil, Option.map_none]
    rfl
  | cons r rs =>
    have hc : t.clear.toList = [] := by simp [RawTable.toList, RawTable.clear_entries]
    cases k with
    | zero =>
      refine ⟨t.clear, RawTable.clear_entries _, ?_⟩
      simp only [DrainIter.take, DrainIter.next, ht, bind, Except.bind, List.head?_cons, Option.map_some]
      rfl
    | succ k =>
      refine ⟨t.clear.clear, RawTable.clear_entries _, ?_⟩
      simp only [DrainIter.take, DrainIter.next, ht, hc, bind, Except.bind, List.head?_cons, Option.map_some, List.head?_nil,
        Option.map_none]
      rfl

omit [EquivBEq L] [EquivBEq R] in
theorem drain_step {hb : BuildHasher L R} {q : Rec L R} {qs us : List (Rec L R)} {t : RawTable (MappingPair R)}
    (ht : t.entries.Perm (tabR hb (q :: qs ++ us))) (ha : (q :: qs ++ us).Pairwise (·.id ≠ ·.id))
    (hs : (leftOf q.e).isSome = true) :
    ∃ t', DrainIter.next ⟨elemsL hb (q :: qs), t⟩ = .ok (some q.e, ⟨elemsL hb qs, t'⟩) ∧
      t'.entries.Perm (tabR hb (qs ++ us)) := by
  obtain ⟨x, hx⟩ := exists_toL (hb := hb) hs
  rw [elemsL_cons hx]
  obtain ⟨e, i⟩ := q
  cases e with
  | neither => cases hx
  | someRight => cases hx
  | someLeft a => cases hx; exact ⟨t, rfl, ht⟩
  | someBoth a b =>
    cases hx
    obtain ⟨t1, e1, h1⟩ := removeR_justId ht ha
    exact ⟨t1, by simp [DrainIter.next, e1], h1⟩

omit [EquivBEq L] [EquivBEq R] in
theorem drain_take {hb : BuildHasher L R} (n : Nat) {qs us : List (Rec L R)} {t : RawTable (MappingPair R)}
    (ht : t.entries.Perm (tabR hb (qs ++ us))) (ha : (qs ++ us).Pairwise (·.id ≠ ·.id))
    (hs : ∀ q ∈ qs, (leftOf q.e).isSome = true) (hle : n ≤ qs.length) :
    ∃ t', DrainIter.take n ⟨elemsL hb qs, t⟩ = .ok ((qs.take n).map Rec.e, ⟨elemsL hb (qs.drop n), t'⟩) ∧
      t'.entries.Perm (tabR hb (qs.drop n ++ us)) := by
  induction n generalizing qs t with
  | zero => exact ⟨t, rfl, ht⟩
  | succ n ih =>
    cases qs with
    | nil => simp at hle
    | cons q qs =>
      obtain ⟨t1, e1, h1⟩ := drain_step ht ha (hs q (by simp))
      obtain ⟨t2, e2, h2⟩ := ih h1 (List.pairwise_cons.1 ha).2 (fun x hx => hs x (List.mem_cons_of_mem _ hx)) (by simpa using hle)
      refine ⟨t2, ?_, h2⟩
      simp only [DrainIter.take, e1, bind, Except.bind, e2]; rfl

omit [EquivBEq L] [EquivBEq R] in
/-- `take` until after the last left entry -/
theorem drain_take_all {hb : BuildHasher L R} (k : Nat) {qs us : List (Rec L R)} {t : RawTable (MappingPair R)}
    (ht : t.entries.Perm (tabR hb (qs ++ us))) (ha : (qs ++ us).Pairwise (·.id ≠ ·.id))
    (hs : ∀ q ∈ qs, (leftOf q.e).isSome = true) :
    ∃ (t' : RawTable (MappingPair R)) (x : Option (OptionalPair L R)), t'.entries = [] ∧
      DrainIter.take (qs.length + (k + 1)) ⟨elemsL hb qs, t⟩ = .ok (qs.map Rec.e ++ x.toList, ⟨[], t'⟩) ∧
      ∃ t1 : RawTable (MappingPair R), t1.entries.Perm (tabR hb us) ∧ x = t1.toList.head?.map fun r => someRight r.value := by
  induction qs generalizing t with
  | nil =>
    obtain ⟨t', h1, h2⟩ := drain_end (L := L) k t
    refine ⟨t', _, h1, ?_, t, ht, rfl⟩
    rw [List.length_nil, Nat.zero_add]; exact h2
  | cons q qs ih =>
    obtain ⟨t1, e1, h1⟩ := drain_step ht ha (hs q (by simp))
    obtain ⟨t2, x, h2, e2, h3⟩ := ih h1 (List.pairwise_cons.1 ha).2 (fun x hx => hs x (List.mem_cons_of_mem _ hx))
    refine ⟨t2, x, h2, ?_, h3⟩
    rw [show (q :: qs).length + (k + 1) = (qs.length + (k + 1)) + 1 from by simp; omega]
    generalize qs.length + (k + 1) = N at e2
    simp only [DrainIter.take, e1, bind, Except.bind, e2]; rfl

omit [EquivBEq L] [EquivBEq R] in
theorem loneRight_of {u : Rec L R} (h1 : leftOf u.e = none) (h2 : u.e ≠ neither) : ∃ r, u.e = someRight r := by
  obtain ⟨e, i⟩ := u
  cases e with
  | someRight r => exact ⟨r, rfl⟩
  | neither => exact absurd rfl h2
  | someLeft => cases h1
  | someBoth => cases h1

omit [EquivBEq L] [EquivBEq R] in
theorem lone_head {hb : BuildHasher L R} {us : List (Rec L R)} {t1 : RawTable (MappingPair R)}
    (h : t1.entries.Perm (tabR hb us)) (hn : ∀ u ∈ us, leftOf u.e = none) (hne : ∀ u ∈ us, u.e ≠ neither) :
    ((t1.toList.head?.map fun r => (someRight r.value : OptionalPair L R)) = none ↔ us = []) ∧
    ∀ e, (t1.toList.head?.map fun r => (someRight r.value : OptionalPair L R)) = some e → e ∈ us.map Rec.e := by
  constructor
  · rw [Option.map_eq_none_iff, List.head?_eq_none_iff]
    simp only [RawTable.toList, List.map_eq_nil_iff]
    constructor
    · intro h0
      rw [h0] at h
      have h3 := h.symm.eq_nil
      cases us with
      | nil => rfl
      | cons u us =>
        obtain ⟨r, hr⟩ := loneRight_of (hn u (by simp)) (hne u (by simp))
        obtain ⟨e, i⟩ := u
        cases hr
        simp [tabR, toR] at h3
    · rintro rfl; exact h.eq_nil
  · intro e he
    rw [Option.map_eq_some_iff] at he
    obtain ⟨r, hr, rfl⟩ := he
    have hm := List.mem_of_mem_head? hr
    simp only [RawTable.toList, List.mem_map] at hm
    obtain ⟨x, hx, rfl⟩ := hm
    obtain ⟨p, hp, hpx⟩ := mem_tabR (h.mem_iff.1 hx)
    refine List.mem_map.2 ⟨p, hp, ?_⟩
    obtain ⟨b, hb'⟩ := loneRight_of (hn p hp) (hne p hp)
    rw [hb']
    have := (toR_some hpx).2.1
    rw [hb'] at this
    cases this; rfl

/-- `drain` yields the entries with a left item in the order of `iter` -/
theorem drainTake_ordered (h : Repr m c) (n : Nat) :
    ∃ (x : Option (OptionalPair L R)) (m' : PartialMap L R),
      m.iterList.Perm (c.filter fun e => (leftOf e).isSome) ∧ (x = none ↔ ∀ e ∈ c, (leftOf e).isSome = true) ∧
      (∀ e, x = some e → e ∈ c ∧ leftOf e = none) ∧
      m.drainTake n = .ok ((m.iterList ++ x.toList).take n, m') ∧ Repr m' [] ∧ m'.hb = m.hb ∧ m'.counter = m.counter := by
  obtain ⟨qs, us, hp, hr, he, hs, hn⟩ := h.ordered
  have hit : m.iterList = qs.map Rec.e := by
    rw [iterList, iter_todo he, hr.collect (fun q hq => List.mem_append_left _ hq) hs]
  rw [hit]
  have hd : m.drain = ⟨elemsL m.hb qs, m.right⟩ := by simp [drain, RawTable.toList, he, elemsL]
  have hne : ∀ u ∈ us, u.e ≠ neither := fun u hu => hr.nonempty u (List.mem_append_right _ hu)
  have hperm : (qs.map Rec.e).Perm (c.filter fun e => (leftOf e).isSome) := by
    rw [← filter_left hs hn]; exact hp.filter _
  have hx1 : ∀ e, e ∈ us.map Rec.e → e ∈ c ∧ leftOf e = none := by
    intro e he
    obtain ⟨u, hu, rfl⟩ := List.mem_map.1 he
    exact ⟨hp.mem_iff.1 (List.mem_map_of_mem (List.mem_append_right _ hu)), hn u hu⟩
  have hx2 : us = [] ↔ ∀ e ∈ c, (leftOf e).isSome = true := by
    constructor
    · rintro rfl e he
      obtain ⟨q, hq, rfl⟩ := List.mem_map.1 (hp.mem_iff.2 he)
      exact hs q (by simpa using hq)
    · intro hall
      cases us with
      | nil => rfl
      | cons u us =>
        have := hall u.e (hp.mem_iff.1 (List.mem_map_of_mem (List.mem_append_right _ (by simp))))
        rw [hn u (by simp)] at this; cases this
  by_cases hle : n ≤ qs.length
  · obtain ⟨t1, e1, h1⟩ := drain_take (hb := m.hb) n hr.right (apart_ids hr.apart) hs hle
    have hs' : ∀ q ∈ qs.drop n, (leftOf q.e).isSome = true := fun q hq => hs q (List.mem_of_mem_drop hq)
    obtain ⟨t2, x, h2, e2, t3, h3, h4⟩ := drain_take_all (hb := m.hb) 1 h1
      (apart_ids (hr.apart.sublist ((List.drop_sublist _ _).append_right _))) hs'
    obtain ⟨k1, k2⟩ := lone_head h3 hn hne
    rw [← h4] at k1 k2
    refine ⟨x, { m with left := m.left.clear, right := t2 }, hperm, k1.trans hx2, fun e he => hx1 e (k2 e he), ?_,
      .nil (RawTable.clear_entries _) h2, rfl, rfl⟩
    simp only [drainTake, hd, e1, bind, Except.bind, elemsL_length hs', e2]
    rw [List.take_append_of_le_length (by simpa using hle), List.map_take]; rfl
  · obtain ⟨k, rfl⟩ : ∃ k, n = qs.length + (k + 1) := ⟨n - qs.length - 1, by omega⟩
    obtain ⟨t2, x, h2, e2, t3, h3, h4⟩ := drain_take_all (hb := m.hb) k hr.right (apart_ids hr.apart) hs
    obtain ⟨k1, k2⟩ := lone_head h3 hn hne
    rw [← h4] at k1 k2
    obtain ⟨t5, h5, e5⟩ := drain_end (L := L) 1 t2
    refine ⟨x, { m with left := m.left.clear, right := t5 }, hperm, k1.trans hx2, fun e he => hx1 e (k2 e he), ?_,
      .nil (RawTable.clear_entries _) h5, rfl, rfl⟩
    simp only [drainTake, hd, e2, bind, Except.bind, List.length_nil, Nat.zero_add, e5]
    rw [List.take_of_length_le (by cases x <;> simp)]; rfl

/-- `drain`: the entries with a left item in some order, then one lone right item if there is any. -/
theorem drainTake_refines (h : Repr m c) (n : Nat) :
    ∃ (d : List (OptionalPair L R)) (x : Option (OptionalPair L R)) (m' : PartialMap L R),
      d.Perm (c.filter fun e => (leftOf e).isSome) ∧ (x = none ↔ ∀ e ∈ c, (leftOf e).isSome = true) ∧
      (∀ e, x = some e → e ∈ c ∧ leftOf e = none) ∧
      m.drainTake n = .ok ((d ++ x.toList).take n, m') ∧ Repr m' [] ∧ m'.hb = m.hb ∧ m'.counter = m.counter :=
  ⟨_, drainTake_ordered h n⟩

/-! ### drain_filter -/

/-- the iterator yields `ys` and then stays at `fin` -/
inductive Yields {σ : Type} (f : σ → OptionalPair L R → Bool × σ) :
    DrainFilter σ L R → List (OptionalPair L R) → DrainFilter σ L R → Prop where
  | done {it fin} (h1 : DrainFilter.next f it = .ok (none, fin)) (h2 : DrainFilter.next f fin = .ok (none, fin)) :
      Yields f it [] fin
  | step {it it' fin y ys} (h : DrainFilter.next f it = .ok (some y, it')) (hr : Yields f it' ys fin) :
      Yields f it (y :: ys) fin

omit [EquivBEq L] [EquivBEq R] in
theorem Yields.congr {σ : Type} {f : σ → OptionalPair L R → Bool × σ} {it it' fin : DrainFilter σ L R} {ys}
    (h : Yields f it' ys fin) (he : DrainFilter.next f it = DrainFilter.next f it') : Yields f it ys fin := by
  cases h with
  | done h1 h2 => exact .done (he.trans h1) h2
  | step h hr => exact .step (he.trans h) hr

omit [EquivBEq L] [EquivBEq R] in
theorem Yields.take {σ : Type} {f : σ → OptionalPair L R → Bool × σ} {it fin : DrainFilter σ L R} {ys}
    (h : Yields f it ys fin) (n : Nat) :
    ∃ it1, DrainFilter.take f n it = .ok (ys.take n, it1) ∧ Yields f it1 (ys.drop n) fin ∧ (ys.length < n → it1 = fin) := by
  induction n generalizing it ys with
  | zero => exact ⟨it, rfl, h, fun h => by simp at h⟩
  | succ n ih =>
    cases h with
    | done h1 h2 =>
      exact ⟨fin, by simp only [DrainFilter.take, h1, bind, Except.bind]; rfl, .done h2 h2, fun _ => rfl⟩
    | step h hr =>
      obtain ⟨it1, e1, h1, h2⟩ := ih hr
      refine ⟨it1, by simp only [DrainFilter.take, h, bind, Except.bind, e1]; rfl, h1, fun hl => h2 (by simpa using hl)⟩

/-- entries that can still be yielded -/
def DrainFilter.measure {σ : Type} (it : DrainFilter σ L R) : Nat :=
  it.todoL.length + if it.reset then it.right.len else it.todoR.length

theorem removeEntry_len {T : Type} {t t' : RawTable T} {x : T} {h : UInt64} {P : T → Bool}
    (hr : t.removeEntry h P = some (x, t')) : t'.len ≤ t.len := by
  unfold RawTable.removeEntry at hr
  split at hr
  · cases hr
  · obtain ⟨e, -, he⟩ := Option.map_eq_some_iff.mp hr
    cases he
    rw [RawTable.len, RawTable.len, (LawfulRaw.touch_perm _ _).length_eq]
    exact (List.eraseIdx_sublist _ _).length_le

omit [EquivBEq L] [EquivBEq R] in
theorem nextL_measure {σ : Type} {f : σ → OptionalPair L R → Bool × σ} {kept todo : List (UInt64 × MappingPair L)}
    {right : RawTable (MappingPair R)} {st : σ} {o k' t' r' s'}
    (h : DrainFilter.nextL f kept todo right st = .ok (o, k', t', r', s')) :
    r'.len ≤ right.len ∧ (o.isSome = true → t'.length + 1 ≤ todo.length) ∧ (o = none → t' = []) := by
  induction todo generalizing kept st with
  | nil => cases h; exact ⟨Nat.le_refl _, by simp, fun _ => rfl⟩
  | cons e rest ih =>
    simp only [DrainFilter.nextL] at h
    split at h
    · split at h
      · cases h
      · rename_i hrem
        split at h
        · cases h
          exact ⟨removeEntry_len hrem, by simp, by simp⟩
        · obtain ⟨h1, h2, h3⟩ := ih h
          exact ⟨h1, fun ho => Nat.le_succ_of_le (h2 ho), h3⟩
    · split at h
      · cases h; exact ⟨Nat.le_refl _, by simp, by simp⟩
      · obtain ⟨h1, h2, h3⟩ := ih h
        exact ⟨h1, fun ho => Nat.le_succ_of_le (h2 ho), h3⟩

omit [EquivBEq L] [EquivBEq R] in
theorem nextR_measure {σ : Type} {f : σ → OptionalPair L R → Bool × σ} {kept todo : List (UInt64 × MappingPair R)}
    {st : σ} : (DrainFilter.nextR f kept todo st).1.isSome = true →
      (DrainFilter.nextR f kept todo st).2.2.1.length + 1 ≤ todo.length := by
  induction todo generalizing kept st with
  | nil => intro h; cases h
  | cons e rest ih =>
    simp only [DrainFilter.nextR]
    split
    · intro _; simp
    · intro h; exact Nat.le_succ_of_le (ih h)

omit [EquivBEq L] [EquivBEq R] in
theorem next_measure {σ : Type} {f : σ → OptionalPair L R → Bool × σ} {it it' : DrainFilter σ L R} {y}
    (h : DrainFilter.next f it = .ok (some y, it')) : it'.measure + 1 ≤ it.measure := by
  unfold DrainFilter.next at h
  cases hn : DrainFilter.nextL f it.keptL it.todoL it.right it.st with
  | error e => rw [hn] at h; cases h
  | ok v =>
    obtain ⟨o, k', t', r', s'⟩ := v
    obtain ⟨m1, m2, m3⟩ := nextL_measure hn
    rw [hn] at h
    cases o with
    | some o =>
      cases h
      have := m2 rfl
      simp only [DrainFilter.measure]
      cases it.reset <;> simp_all <;> omega
    | none =>
      simp only [bind, Except.bind, pure, Except.pure] at h
      cases m3 rfl
      cases hres : it.reset with
      | true =>
        rw [hres] at h
        have hm := nextR_measure (f := f) (kept := []) (todo := r'.entries) (st := s')
        simp only [if_true] at h
        generalize DrainFilter.nextR f [] r'.entries s' = z at h hm
        obtain ⟨z1, z2, z3, z4⟩ := z
        cases h
        have := hm rfl
        simp only [DrainFilter.measure, hres, RawTable.len] at *
        simp at *; omega
      | false =>
        rw [hres] at h
        have hm := nextR_measure (f := f) (kept := it.keptR) (todo := it.todoR) (st := s')
        simp only [Bool.false_eq_true, if_false] at h
        generalize DrainFilter.nextR f it.keptR it.todoR s' = z at h hm
        obtain ⟨z1, z2, z3, z4⟩ := z
        cases h
        have := hm rfl
        simp only [DrainFilter.measure, hres] at *
        simp at *; omega

omit [EquivBEq L] [EquivBEq R] in
theorem Yields.length {σ : Type} {f : σ → OptionalPair L R → Bool × σ} {it fin : DrainFilter σ L R} {ys}
    (h : Yields f it ys fin) : ys.length ≤ it.measure := by
  induction h with
  | done => exact Nat.zero_le _
  | step h _ ih => have := next_measure h; simp; omega

omit [EquivBEq L] [EquivBEq R] in
theorem drainFilterTake_of_yields {σ : Type} {f : σ → OptionalPair L R → Bool × σ} {s : σ} {ys fin}
    (h : Yields f { keptL := [], todoL := m.left.entries, right := m.right, reset := true, keptR := [], todoR := [], st := s } ys fin)
    (n : Nat) :
    m.drainFilterTake f s n = .ok (ys.take n, fin.st,
      { m with left := RawImpl.touch (.erase (stays m.left (fin.keptL ++ fin.todoL))) { m.left with entries := fin.keptL ++ fin.todoL },
               right := RawImpl.touch (.erase (stays fin.right (fin.keptR ++ fin.todoR))) { fin.right with entries := fin.keptR ++ fin.todoR } }) := by
  obtain ⟨it1, e1, h1, -⟩ := h.take n
  obtain ⟨it2, e2, -, h3⟩ := h1.take (it1.todoL.length + it1.right.len + it1.todoR.length + 1)
  have hlen := h1.length
  have : it2 = fin := h3 (by
    refine Nat.lt_of_le_of_lt hlen ?_
    unfold DrainFilter.measure
    split <;> omega)
  subst this
  simp only [drainFilterTake, e1, bind, Except.bind, e2]; rfl

/-- how the closure sees a right entry in the second pass -/
def onR {σ : Type} (f : σ → OptionalPair L R → Bool × σ) : σ → UInt64 × MappingPair R → Bool × σ :=
  fun s e => f s (someRight e.2.value)

/-- how the closure sees a record in the first pass -/
def onE {σ : Type} (f : σ → OptionalPair L R → Bool × σ) : σ → Rec L R → Bool × σ := fun s q => f s q.e

omit [EquivBEq L] [EquivBEq R] in
/-- the second pass -/
theorem yields_right {σ : Type} (f : σ → OptionalPair L R → Bool × σ) (keptL : List (UInt64 × MappingPair L))
    (t : RawTable (MappingPair R)) (todo kept : List (UInt64 × MappingPair R)) (s : σ) :
    Yields f ⟨keptL, [], t, false, kept, todo, s⟩ ((split (onR f) todo s).1.map fun e => someRight e.2.value)
      ⟨keptL, [], t, false, kept ++ (split (onR f) todo s).2.1, [], (split (onR f) todo s).2.2⟩ := by
  induction todo generalizing kept s with
  | nil => simp only [split, List.append_nil, List.map_nil]; exact .done rfl rfl
  | cons e todo ih =>
    cases hf : f s (someRight e.2.value) with
    | mk b s' =>
      have hf' : onR f s e = (b, s') := hf
      cases b with
      | true =>
        simp only [split, hf', List.map_cons]
        refine .step ?_ (ih kept s')
        simp [DrainFilter.next, DrainFilter.nextL, DrainFilter.nextR, hf, bind, Except.bind, pure, Except.pure]
      | false =>
        simp only [split, hf']
        have := ih (kept ++ [e]) s'
        rw [List.append_assoc] at this
        refine this.congr ?_
        simp [DrainFilter.next, DrainFilter.nextL, DrainFilter.nextR, hf, bind, Except.bind, pure, Except.pure]

omit [EquivBEq L] [EquivBEq R] in
/-- one record of the first pass -/
theorem yields_step {σ : Type} {hb : BuildHasher L R} (f : σ → OptionalPair L R → Bool × σ) {q : Rec L R}
    {ks qs us : List (Rec L R)} {t : RawTable (MappingPair R)} (s : σ)
    (ht : t.entries.Perm (tabR hb (ks ++ (q :: qs) ++ us))) (ha : (ks ++ (q :: qs) ++ us).Pairwise (·.id ≠ ·.id))
    (hs : (leftOf q.e).isSome = true) :
    ∃ t', t'.entries.Perm (tabR hb (ks ++ qs ++ us)) ∧
      DrainFilter.next f ⟨tabL hb ks, tabL hb (q :: qs), t, true, [], [], s⟩ =
        if (f s q.e).1 then .ok (some q.e, ⟨tabL hb ks, tabL hb qs, t', true, [], [], (f s q.e).2⟩)
        else DrainFilter.next f ⟨tabL hb (ks ++ [q]), tabL hb qs, t, true, [], [], (f s q.e).2⟩ := by
  have hp : (ks ++ (q :: qs) ++ us).Perm (q :: (ks ++ qs ++ us)) := by
    rw [List.append_assoc, List.append_assoc, List.cons_append]; exact List.perm_middle
  have ht' := ht.trans (hp.filterMap (toR hb))
  have ha' := (hp.pairwise_iff (fun h => Ne.symm h)).1 ha
  obtain ⟨x, hx⟩ := exists_toL (hb := hb) hs
  have e1 : tabL hb (q :: qs) = x :: tabL hb qs := by rw [tabL, List.filterMap_cons_some hx]; rfl
  have e2 : tabL hb (ks ++ [q]) = tabL hb ks ++ [x] := by
    rw [tabL, List.filterMap_append, List.filterMap_cons_some hx]; rfl
  rw [e1, e2]
  obtain ⟨e, i⟩ := q
  cases e with
  | neither => cases hx
  | someRight => cases hx
  | someLeft a =>
    cases hx
    refine ⟨t, ht', ?_⟩
    cases hf : f s (someLeft a) with
    | mk b s' =>
      cases b <;> simp [DrainFilter.next, DrainFilter.nextL, hf, bind, Except.bind, pure, Except.pure]
  | someBoth a b =>
    cases hx
    obtain ⟨t1, h1, h2⟩ := removeR_justId ht' ha'
    refine ⟨t1, h2, ?_⟩
    cases hf : f s (someBoth a b) with
    | mk b s' =>
      cases b <;> simp [DrainFilter.next, DrainFilter.nextL, hf, h1, bind, Except.bind, pure, Except.pure]

omit [EquivBEq L] [EquivBEq R] in
theorem yields_left {σ : Type} {hb : BuildHasher L R} (f : σ → OptionalPair L R → Bool × σ)
    {ks qs us : List (Rec L R)} {t : RawTable (MappingPair R)} (s : σ)
    (ht : t.entries.Perm (tabR hb (ks ++ qs ++ us))) (ha : (ks ++ qs ++ us).Pairwise (·.id ≠ ·.id))
    (hs : ∀ q ∈ qs, (leftOf q.e).isSome = true) :
    ∃ t1 : RawTable (MappingPair R), t1.entries.Perm (tabR hb (ks ++ (split (onE f) qs s).2.1 ++ us)) ∧
      Yields f ⟨tabL hb ks, tabL hb qs, t, true, [], [], s⟩
        ((split (onE f) qs s).1.map Rec.e ++
          (split (onR f) t1.entries (split (onE f) qs s).2.2).1.map fun e => someRight e.2.value)
        ⟨tabL hb (ks ++ (split (onE f) qs s).2.1), [], t1, false, (split (onR f) t1.entries (split (onE f) qs s).2.2).2.1, [],
          (split (onR f) t1.entries (split (onE f) qs s).2.2).2.2⟩ := by
  induction qs generalizing ks t s with
  | nil =>
    refine ⟨t, by simpa [split] using ht, ?_⟩
    simp only [split, List.append_nil, List.map_nil, List.nil_append]
    exact (yields_right f (tabL hb ks) t t.entries [] s).congr rfl
  | cons q qs ih =>
    obtain ⟨t1, h1, e1⟩ := yields_step f s ht ha (hs q (by simp))
    have hs' : ∀ x ∈ qs, (leftOf x.e).isSome = true := fun x hx => hs x (List.mem_cons_of_mem _ hx)
    cases hf : f s q.e with
    | mk b s' =>
      have hf' : onE f s q = (b, s') := hf
      rw [hf] at e1
      cases b with
      | true =>
        have ha' : (ks ++ qs ++ us).Pairwise (·.id ≠ ·.id) := by
          have hp : (ks ++ (q :: qs) ++ us).Perm (q :: (ks ++ qs ++ us)) := by
            rw [List.append_assoc, List.append_assoc, List.cons_append]; exact List.perm_middle
          exact (List.pairwise_cons.1 ((hp.pairwise_iff (fun h => Ne.symm h)).1 ha)).2
        obtain ⟨t2, h2, y2⟩ := ih s' h1 ha' hs'
        refine ⟨t2, ?_, ?_⟩
        · simp only [split, hf']; exact h2
        · simp only [split, hf', List.map_cons, List.cons_append]
          exact .step e1 y2
      | false =>
        obtain ⟨t2, h2, y2⟩ := ih (ks := ks ++ [q]) s' (by simpa using ht) (by simpa using ha) hs'
        refine ⟨t2, ?_, ?_⟩
        · simp only [split, hf']; simpa using h2
        · simp only [split, hf']
          have := y2.congr e1
          simpa using this

theorem split_mapped {σ α β : Type} (f : σ → β → Bool × σ) (g : α → β) (as : List α) (s : σ) :
    split f (as.map g) s = ((split (fun s a => f s (g a)) as s).1.map g, (split (fun s a => f s (g a)) as s).2.1.map g,
      (split (fun s a => f s (g a)) as s).2.2) := by
  induction as generalizing s with
  | nil => rfl
  | cons a as ih =>
    cases hf : f s (g a) with
    | mk b s' => cases b <;> simp [split, hf, ih s']

/-- what the closure accepted, it accepted in some state -/
theorem split_accepted {σ α : Type} {f : σ → α → Bool × σ} {as : List α} {s : σ} {a : α} (h : a ∈ (split f as s).1) :
    ∃ s', (f s' a).1 = true := by
  induction as generalizing s with
  | nil => simp [split] at h
  | cons b as ih =>
    cases hf : f s b with
    | mk x s' =>
      cases x with
      | true =>
        simp only [split, hf] at h
        rcases List.mem_cons.1 h with rfl | h
        · exact ⟨s, by rw [hf]⟩
        · exact ih h
      | false =>
        simp only [split, hf] at h
        exact ih h

/-- how the closure sees a record in the second pass -/
def onAsRight {σ : Type} (f : σ → OptionalPair L R → Bool × σ) : σ → Rec L R → Bool × σ := fun s q => f s (asRight q.e)

omit [EquivBEq L] [EquivBEq R] in
theorem split_tabR {σ : Type} {hb : BuildHasher L R} (f : σ → OptionalPair L R → Bool × σ) {rs : List (Rec L R)}
    (h : ∀ q ∈ rs, (rightOf q.e).isSome = true) (s : σ) :
    split (onR f) (tabR hb rs) s = (tabR hb (split (onAsRight f) rs s).1, tabR hb (split (onAsRight f) rs s).2.1,
      (split (onAsRight f) rs s).2.2) := by
  induction rs generalizing s with
  | nil => rfl
  | cons q rs ih =>
    have ih := fun s => ih (fun x hx => h x (List.mem_cons_of_mem _ hx)) s
    have hq := h q (by simp)
    obtain ⟨x, hx⟩ := Option.isSome_iff_exists.1 ((toR_isSome (hb := hb)).trans hq)
    have hc : ∀ l, tabR hb (q :: l) = x :: tabR hb l := fun l => by rw [tabR, List.filterMap_cons_some hx]; rfl
    have hf : onR f s x = onAsRight f s q := by
      obtain ⟨e, i⟩ := q
      cases e <;> cases hx <;> rfl
    rw [hc]
    cases hb' : onAsRight f s q with
    | mk b s' => cases b <;> simp [split, hb', hf, ih s', hc]

omit [EquivBEq L] [EquivBEq R] in
theorem tabR_asRight {hb : BuildHasher L R} {rs : List (Rec L R)} (h : ∀ q ∈ rs, (rightOf q.e).isSome = true) :
    (tabR hb rs).map (fun e => (someRight e.2.value : OptionalPair L R)) = rs.map fun q => asRight q.e := by
  induction rs with
  | nil => rfl
  | cons q rs ih =>
    have hq := h q (by simp)
    obtain ⟨x, hx⟩ := Option.isSome_iff_exists.1 ((toR_isSome (hb := hb)).trans hq)
    rw [tabR, List.filterMap_cons_some hx, List.map_cons, List.map_cons]
    refine congr (congrArg _ ?_) (ih fun x hx => h x (List.mem_cons_of_mem _ hx))
    obtain ⟨e, i⟩ := q
    cases e <;> first | cases hx; rfl | cases hx

/-- the first pass of `drain_filter` visits the entries in the order of `iter` -/
theorem drainFilterTake_ordered {σ : Type} (h : Repr m c) (f : σ → OptionalPair L R → Bool × σ) (s : σ) (n : Nat) :
    ∃ (us d2 : List (OptionalPair L R)) (m' : PartialMap L R),
      (m.iterList ++ us).Perm c ∧ (∀ e ∈ m.iterList, (leftOf e).isSome = true) ∧ (∀ e ∈ us, leftOf e = none) ∧
      (d2 ++ (split f m.iterList s).2.1.filter fun e => (rightOf e).isNone).Perm ((split f m.iterList s).2.1 ++ us) ∧
      (∀ e ∈ d2, (rightOf e).isSome = true) ∧
      m.drainFilterTake f s n =
        .ok (((split f m.iterList s).1 ++ (split (fun s e => f s (asRight e)) d2 (split f m.iterList s).2.2).1.map asRight).take n,
          (split (fun s e => f s (asRight e)) d2 (split f m.iterList s).2.2).2.2, m') ∧
      m'.hb = m.hb ∧ m'.counter = m.counter ∧
      m'.iterLeft.Perm ((split f m.iterList s).2.1.filterMap leftOf) ∧
      m'.iterRight.Perm ((split (fun s e => f s (asRight e)) d2 (split f m.iterList s).2.2).2.1.filterMap rightOf) ∧
      (∀ l r, someBoth l r ∈ (split (fun s e => f s (asRight e)) d2 (split f m.iterList s).2.2).1 →
        m'.isLeftPaired l = true ∧ m'.getRight l = none ∧ m'.removeViaLeft l = .error .unwrapNone) ∧
      ((∀ l r, someBoth l r ∉ (split (fun s e => f s (asRight e)) d2 (split f m.iterList s).2.2).1) →
        Repr m' ((split (fun s e => f s (asRight e)) d2 (split f m.iterList s).2.2).2.1 ++
          (split f m.iterList s).2.1.filter fun e => (rightOf e).isNone)) := by
  obtain ⟨qs, us, hp, hr, he, hs, hn⟩ := h.ordered
  have hit : m.iterList = qs.map Rec.e := by
    rw [iterList, iter_todo he, hr.collect (fun q hq => List.mem_append_left _ hq) hs]
  rw [hit]
  obtain ⟨t1, h1, y1⟩ := yields_left (hb := m.hb) (ks := []) f s (by simpa using hr.right) (by simpa using apart_ids hr.apart) hs
  obtain ⟨rs, ws, hq, ht, hrs, hws⟩ := perm_filterMap_inv h1
  have hrs' : ∀ q ∈ rs, (rightOf q.e).isSome = true := fun q hm => by rw [← toR_isSome (hb := m.hb)]; exact hrs q hm
  have hws' : ∀ q ∈ ws, rightOf q.e = none := fun q hm => toR_none.1 (hws q hm)
  rw [List.nil_append] at hq h1
  have hsp := split_perm (onE f) qs s
  have hk : ((split (onE f) qs s).2.1 ++ us).Perm (rs ++ ws) := hq
  have hsub : ∀ q ∈ (split (onE f) qs s).2.1, q ∈ qs := fun q hm => hsp.mem_iff.2 (List.mem_append_right _ hm)
  have husR : ∀ u ∈ us, (rightOf u.e).isSome = true := by
    intro u hu
    obtain ⟨b, hb⟩ := loneRight_of (hn u hu) (hr.nonempty u (List.mem_append_right _ hu))
    rw [hb]; rfl
  have hrec : ∀ q ∈ rs ++ ws, q ∈ qs ++ us := by
    intro q hm
    rcases List.mem_append.1 (hk.mem_iff.2 hm) with hm | hm
    · exact List.mem_append_left _ (hsub q hm)
    · exact List.mem_append_right _ hm
  have hapart : (rs ++ ws).Pairwise Apart := by
    have e1 : (qs ++ us).Perm ((split (onE f) qs s).1 ++ ((split (onE f) qs s).2.1 ++ us)) := by
      rw [← List.append_assoc]; exact hsp.append_right _
    exact pairwise_perm (List.pairwise_append.1 (pairwise_perm hr.apart e1)).2.1 hk
  have he' : t1.entries = tabR m.hb rs := ht
  rw [he', split_tabR f hrs', List.nil_append] at y1
  have hmapped1 : split f (qs.map Rec.e) s = ((split (onE f) qs s).1.map Rec.e, (split (onE f) qs s).2.1.map Rec.e,
      (split (onE f) qs s).2.2) := split_mapped f Rec.e qs s
  have hmapped2 := fun s1 => split_mapped (fun s e => f s (asRight e)) Rec.e rs s1
  have hmapped2 : ∀ s1, split (fun s e => f s (asRight e)) (rs.map Rec.e) s1 = ((split (onAsRight f) rs s1).1.map Rec.e,
    (split (onAsRight f) rs s1).2.1.map Rec.e, (split (onAsRight f) rs s1).2.2) := hmapped2
  generalize hs1 : (split (onE f) qs s).2.2 = s1 at *
  generalize hk1 : (split (onE f) qs s).2.1 = k1 at *
  generalize ha1 : (split (onE f) qs s).1 = a1 at *
  have hsp2 := split_perm (onAsRight f) rs s1
  generalize hs2 : (split (onAsRight f) rs s1).2.2 = s2 at *
  generalize hk2 : (split (onAsRight f) rs s1).2.1 = k2 at *
  generalize ha2 : (split (onAsRight f) rs s1).1 = a2 at *
  have ha2R : ∀ q ∈ a2, (rightOf q.e).isSome = true := fun q hm => hrs' q (hsp2.mem_iff.2 (List.mem_append_left _ hm))
  have hfil : ((k1.map Rec.e).filter fun e => (rightOf e).isNone).Perm (ws.map Rec.e) := by
    have e1 := ((hk.map Rec.e).filter fun e => (rightOf e).isNone)
    rw [List.map_append, List.map_append, List.filter_append, List.filter_append] at e1
    have e2 : (us.map Rec.e).filter (fun e => (rightOf e).isNone) = [] := by
      rw [List.filter_eq_nil_iff]; intro e he
      obtain ⟨u, hu, rfl⟩ := List.mem_map.1 he
      have := husR u hu
      cases hx : rightOf u.e <;> simp_all
    have e3 : (rs.map Rec.e).filter (fun e => (rightOf e).isNone) = [] := by
      rw [List.filter_eq_nil_iff]; intro e he
      obtain ⟨u, hu, rfl⟩ := List.mem_map.1 he
      have := hrs' u hu
      cases hx : rightOf u.e <;> simp_all
    have e4 : (ws.map Rec.e).filter (fun e => (rightOf e).isNone) = ws.map Rec.e := by
      rw [List.filter_eq_self]; intro e he
      obtain ⟨u, hu, rfl⟩ := List.mem_map.1 he
      rw [hws' u hu]; rfl
    rw [e2, e3, e4, List.append_nil, List.nil_append] at e1
    exact e1
  refine ⟨us.map Rec.e, rs.map Rec.e,
    { m with left := RawImpl.touch (.erase (stays m.left (tabL m.hb k1 ++ []))) { m.left with entries := tabL m.hb k1 ++ [] },
             right := RawImpl.touch (.erase (stays t1 (tabR m.hb k2 ++ []))) { t1 with entries := tabR m.hb k2 ++ [] } }, ?_, ?_, ?_, ?_, ?_, ?_, rfl, rfl, ?_, ?_, ?_, ?_⟩
  · simpa using hp
  · intro e he'; obtain ⟨q, hq, rfl⟩ := List.mem_map.1 he'; exact hs q hq
  · intro e he'; obtain ⟨q, hq, rfl⟩ := List.mem_map.1 he'; exact hn q hq
  · rw [hmapped1]
    refine (List.Perm.append_left _ hfil).trans ?_
    rw [← List.map_append, ← List.map_append]; exact (hk.map _).symm
  · intro e he'; obtain ⟨q, hq, rfl⟩ := List.mem_map.1 he'; exact hrs' q hq
  · have := drainFilterTake_of_yields (m := m) (s := s) (by rw [he]; exact y1) n
    rw [this, hmapped1]
    simp only [hmapped2, hs1]
    rw [ha2, hs2, tabR_asRight ha2R, List.map_map]; rfl
  · rw [hmapped1]
    simp only [iterLeft, RawTable.toList, List.map_map]
    refine (((LawfulRaw.touch_perm _ _).map _)).trans ?_
    simp only [List.append_nil]
    rw [← tabL_values (hb := m.hb)]
    rfl
  · rw [hmapped1]
    simp only [hmapped2]
    simp only [iterRight, RawTable.toList, List.map_map]
    refine (((LawfulRaw.touch_perm _ _).map _)).trans ?_
    simp only [List.append_nil]
    rw [hk2, ← tabR_values (hb := m.hb)]
    rfl
  · intro l r hm
    rw [hmapped1] at hm
    simp only [hmapped2] at hm
    rw [ha2] at hm
    obtain ⟨⟨e, i⟩, hqa, heq⟩ := List.mem_map.1 hm
    have heq : e = someBoth l r := heq
    subst heq
    have hqr : (⟨someBoth l r, i⟩ : Rec L R) ∈ rs := hsp2.mem_iff.2 (List.mem_append_left _ hqa)
    have hqk : (⟨someBoth l r, i⟩ : Rec L R) ∈ k1 := by
      rcases List.mem_append.1 (hk.mem_iff.2 (List.mem_append_left _ hqr)) with h | h
      · exact h
      · exact absurd (hn _ h) (by simp [leftOf])
    obtain ⟨k1', hk1'⟩ := perm_cons_of_mem hqk
    have hap : (k1 ++ us).Pairwise Apart := pairwise_perm hapart hk.symm
    have hap1 := List.pairwise_cons.1 (pairwise_perm (List.pairwise_append.1 hap).1 hk1')
    have hids2 : ∀ q ∈ k2, i ≠ q.id := by
      intro q hq
      have := (List.pairwise_append.1 (pairwise_perm (List.pairwise_append.1 hapart).1 hsp2)).2.2 _ hqa q hq
      exact this.1
    have pl : (RawImpl.touch (.erase (stays m.left (tabL m.hb k1 ++ []))) { m.left with entries := tabL m.hb k1 ++ [] } : RawTable (MappingPair L)).entries.Perm
        ((m.hb.hl l, ⟨l, some (m.hb.hr r), i⟩) :: tabL m.hb k1') := by
      refine (LawfulRaw.touch_perm _ _).trans ?_
      simp only [List.append_nil]
      exact (hk1'.filterMap _)
    have nr : ∀ x ∈ (RawImpl.touch (.erase (stays t1 (tabR m.hb k2 ++ []))) { t1 with entries := tabR m.hb k2 ++ [] } : RawTable (MappingPair R)).entries,
        hashAndId (m.hb.hl l) i x.2 = false := by
      intro x hx
      have hx := (LawfulRaw.touch_perm _ _).mem_iff.1 hx
      simp only [List.append_nil] at hx
      exact hidsR _ hids2 x hx
    have hkey : ∀ y ∈ tabL m.hb k1', equivalentKey l y.2 = false :=
      keysL fun q hq => hasL_false_of (x := someBoth l r) (by simp [hasL]) (hap1.1 q hq).2
    have g1 := RawTable.get_some (h := m.hb.hl l) (p := equivalentKey l) pl rfl BEq.rfl hkey
    obtain ⟨t', g2, _⟩ := RawTable.removeEntry_some (h := m.hb.hl l) (p := equivalentKey l) pl rfl BEq.rfl hkey
    have g3 := g1
    have e0 : (equivalentKey l) = fun x => l == x.value := rfl
    rw [e0] at g3
    refine ⟨?_, ?_, ?_⟩
    · simp only [isLeftPaired, g1]; rfl
    · simp only [getRight, getRightBy, g3, RawTable.get_none nr]
    · simp only [removeViaLeft, g2, RawTable.removeEntry_none nr]
  · intro hsafe
    have hlone : ∀ q ∈ a2, leftOf q.e = none := by
      intro q hm
      have hR := ha2R q hm
      obtain ⟨e, i⟩ := q
      cases e with
      | neither => cases hR
      | someLeft => cases hR
      | someRight => rfl
      | someBoth a b =>
        refine absurd ?_ (hsafe a b)
        rw [hmapped1]
        simp only [hmapped2]
        rw [ha2]
        exact List.mem_map_of_mem (f := Rec.e) hm
    have htl : ∀ l : List (Rec L R), (∀ q ∈ l, leftOf q.e = none) → tabL m.hb l = [] := fun l hl => by
      rw [tabL, List.filterMap_eq_nil_iff]; intro q hq; exact toL_none.2 (hl q hq)
    have htr : tabR m.hb ws = [] := by
      rw [tabR, List.filterMap_eq_nil_iff]; intro q hq; exact toR_none.2 (hws' q hq)
    have hfull : (rs ++ ws).Perm (a2 ++ (k2 ++ ws)) := by
      rw [← List.append_assoc]; exact hsp2.append_right _
    refine ⟨k2 ++ ws, ⟨?_, ?_, ?_, ?_, ?_⟩, ?_⟩
    · refine (LawfulRaw.touch_perm _ _).trans ?_
      simp only [List.append_nil]
      have e1 : tabL m.hb k1 = tabL m.hb (k1 ++ us) := by
        have := htl us hn
        simp only [tabL, List.filterMap_append] at this ⊢
        rw [this, List.append_nil]
      have e2 : tabL m.hb (k2 ++ ws) = tabL m.hb (a2 ++ (k2 ++ ws)) := by
        have := htl a2 hlone
        simp only [tabL, List.filterMap_append] at this ⊢
        rw [this, List.nil_append]
      rw [e1, e2]
      exact (hk.trans hfull).filterMap _
    · refine (LawfulRaw.touch_perm _ _).trans ?_
      simp only [List.append_nil]
      simp only [tabR, List.filterMap_append] at htr ⊢
      rw [htr, List.append_nil]
    · exact (List.pairwise_append.1 (pairwise_perm hapart hfull)).2.1
    · intro q hm
      exact hr.bound q (hrec q (hfull.mem_iff.2 (List.mem_append_right _ hm)))
    · intro q hm
      exact hr.nonempty q (hrec q (hfull.mem_iff.2 (List.mem_append_right _ hm)))
    · rw [hmapped1]
      simp only [hmapped2]
      rw [hk2, List.map_append]
      exact List.Perm.append_left _ hfil.symm

/-- `drain_filter`: a first pass over the entries with a left item, then a second pass in which the
closure sees every remaining right item as if it were alone. -/
theorem drainFilterTake_whole {σ : Type} (h : Repr m c) (f : σ → OptionalPair L R → Bool × σ) (s : σ) (n : Nat) :
    ∃ (d1 us d2 : List (OptionalPair L R)) (m' : PartialMap L R),
      (d1 ++ us).Perm c ∧ (∀ e ∈ d1, (leftOf e).isSome = true) ∧ (∀ e ∈ us, leftOf e = none) ∧
      (d2 ++ (split f d1 s).2.1.filter fun e => (rightOf e).isNone).Perm ((split f d1 s).2.1 ++ us) ∧
      (∀ e ∈ d2, (rightOf e).isSome = true) ∧
      m.drainFilterTake f s n =
        .ok (((split f d1 s).1 ++ (split (fun s e => f s (asRight e)) d2 (split f d1 s).2.2).1.map asRight).take n,
          (split (fun s e => f s (asRight e)) d2 (split f d1 s).2.2).2.2, m') ∧
      m'.hb = m.hb ∧ m'.counter = m.counter ∧
      m'.iterLeft.Perm ((split f d1 s).2.1.filterMap leftOf) ∧
      m'.iterRight.Perm ((split (fun s e => f s (asRight e)) d2 (split f d1 s).2.2).2.1.filterMap rightOf) ∧
      (∀ l r, someBoth l r ∈ (split (fun s e => f s (asRight e)) d2 (split f d1 s).2.2).1 →
        m'.isLeftPaired l = true ∧ m'.getRight l = none ∧ m'.removeViaLeft l = .error .unwrapNone) ∧
      ((∀ l r, someBoth l r ∉ (split (fun s e => f s (asRight e)) d2 (split f d1 s).2.2).1) →
        Repr m' ((split (fun s e => f s (asRight e)) d2 (split f d1 s).2.2).2.1 ++
          (split f d1 s).2.1.filter fun e => (rightOf e).isNone)) :=
  ⟨_, drainFilterTake_ordered h f s n⟩

/-- as `drainFilterTake_whole`, with a condition on the closure alone -/
theorem drainFilterTake_refines {σ : Type} (h : Repr m c) (f : σ → OptionalPair L R → Bool × σ) (s : σ) (n : Nat) :
    ∃ (d1 us d2 : List (OptionalPair L R)) (m' : PartialMap L R),
      (d1 ++ us).Perm c ∧ (∀ e ∈ d1, (leftOf e).isSome = true) ∧ (∀ e ∈ us, leftOf e = none) ∧
      (d2 ++ (split f d1 s).2.1.filter fun e => (rightOf e).isNone).Perm ((split f d1 s).2.1 ++ us) ∧
      (∀ e ∈ d2, (rightOf e).isSome = true) ∧
      m.drainFilterTake f s n =
        .ok (((split f d1 s).1 ++ (split (fun s e => f s (asRight e)) d2 (split f d1 s).2.2).1.map asRight).take n,
          (split (fun s e => f s (asRight e)) d2 (split f d1 s).2.2).2.2, m') ∧
      m'.hb = m.hb ∧ m'.counter = m.counter ∧
      m'.iterLeft.Perm ((split f d1 s).2.1.filterMap leftOf) ∧
      m'.iterRight.Perm ((split (fun s e => f s (asRight e)) d2 (split f d1 s).2.2).2.1.filterMap rightOf) ∧
      (∀ l r, someBoth l r ∈ (split (fun s e => f s (asRight e)) d2 (split f d1 s).2.2).1 →
        m'.isLeftPaired l = true ∧ m'.getRight l = none ∧ m'.removeViaLeft l = .error .unwrapNone) ∧
      ((∀ s l r, someBoth l r ∈ c → (f s (someRight r)).1 = false) →
        Repr m' ((split (fun s e => f s (asRight e)) d2 (split f d1 s).2.2).2.1 ++
          (split f d1 s).2.1.filter fun e => (rightOf e).isNone)) := by
  obtain ⟨d1, us, d2, m', h1, h2, h3, h4, h5, h6, h7, h8, h9, h10, h11, h12⟩ := drainFilterTake_whole h f s n
  refine ⟨d1, us, d2, m', h1, h2, h3, h4, h5, h6, h7, h8, h9, h10, h11, fun hsafe => h12 fun l r hm => ?_⟩
  obtain ⟨s', hs'⟩ := split_accepted hm
  have hm2 := h4.mem_iff.1 (List.mem_append_left _ ((split_perm _ d2 _).mem_iff.2 (List.mem_append_left _ hm)))
  have hm1 : someBoth l r ∈ d1 ++ us := by
    rcases List.mem_append.1 hm2 with hm2 | hm2
    · exact List.mem_append_left _ ((split_perm f d1 s).mem_iff.2 (List.mem_append_right _ hm2))
    · exact List.mem_append_right _ hm2
  have := hsafe s' l r (h1.mem_iff.1 hm1)
  rw [asRight, this] at hs'; cases hs'

/-! ### The retain family -/

/-- the key under which the scan loops remember a record -/
def keyOf (hb : BuildHasher L R) (q : Rec L R) : Option UInt64 × Option UInt64 × Nat :=
  ((leftOf q.e).map hb.hl, (rightOf q.e).map hb.hr, q.id)

theorem retainScan_eq {σ : Type} {ps qs : List (Rec L R)} (h : Rep m ps) (f : σ → OptionalPair L R → Bool × σ) (s : σ)
    (hq : ∀ q ∈ qs, q ∈ ps) (hs : ∀ q ∈ qs, (leftOf q.e).isSome = true) :
    m.retainScan f (elemsL m.hb qs) s =
      .ok ((split (onE f) qs s).1.map (keyOf m.hb), (split (onE f) qs s).2.2) := by
  induction qs generalizing s with
  | nil => rfl
  | cons q qs ih =>
    have ih := fun s => ih s (fun x hx => hq x (List.mem_cons_of_mem _ hx)) (fun x hx => hs x (List.mem_cons_of_mem _ hx))
    have hqp := hq q (by simp)
    obtain ⟨a, ha⟩ := Option.isSome_iff_exists.1 (hs q (by simp))
    obtain ⟨x, hx⟩ := exists_toL (hb := m.hb) (hs q (by simp))
    obtain ⟨x', hx', hget⟩ := h.getLeftInner_mem hqp ha
    rw [hx] at hx'; cases hx'
    have hnext := h.next_cons hqp hx (elemsL m.hb qs)
    rw [elemsL_cons hx]
    have hid := (toL_some hx).1
    cases hf : f s q.e with
    | mk b s' =>
      have hf' : onE f s q = (b, s') := hf
      cases b with
      | false => simp only [retainScan, hnext, hf, split, hf', ih s']
      | true =>
        have e1 : q.e.toPair.1 = some a := by rw [← ha]; cases q.e <;> rfl
        have e2 : q.e.toPair.2 = rightOf q.e := by cases q.e <;> rfl
        simp only [retainScan, hnext, hf, split, hf', e1, e2, hget, ih s', bind, Except.bind, pure, Except.pure, List.map_cons,
          keyOf, ha, hid]

theorem removeVia_rep {a : L} {b : R} {i : Nat} {ks} (h : Rep m (⟨someBoth a b, i⟩ :: ks)) :
    ∃ m', (m.removeViaHashesAndId (m.hb.hl a) (m.hb.hr b) i).2 = m' ∧ Rep m' ks ∧ m'.hb = m.hb ∧ m'.counter = m.counter := by
  obtain ⟨t1, e1, h1⟩ := RawTable.removeEntry_some (p := hashAndId (m.hb.hr b) i) (h := m.hb.hl a) (h.consL rfl) rfl
    (hashAndId_self _ _ _) (hidsL _ h.ids)
  obtain ⟨t2, e2, h2⟩ := RawTable.removeEntry_some (p := hashAndId (m.hb.hl a) i) (h := m.hb.hr b) (h.consR rfl) rfl
    (hashAndId_self _ _ _) (hidsR _ h.ids)
  exact ⟨_, by simp only [removeViaHashesAndId, e1, e2], h.tail h1 h2, rfl, rfl⟩

theorem removeLoneL_rep {a : L} {i : Nat} {ks} (h : Rep m (⟨someLeft a, i⟩ :: ks)) :
    ∃ t, m.left.removeEntry (m.hb.hl a) (justId i) = some (⟨a, none, i⟩, t) ∧ Rep { m with left := t } ks := by
  obtain ⟨t1, e1, h1⟩ := RawTable.removeEntry_some (p := justId i) (h := m.hb.hl a) (h.consL rfl) rfl
    (justId_self _ _ _) (idsL h.ids)
  exact ⟨t1, e1, h.tail h1 (h.tailR rfl)⟩

theorem removeLoneR_rep {b : R} {i : Nat} {ks} (h : Rep m (⟨someRight b, i⟩ :: ks)) :
    ∃ t, m.right.removeEntry (m.hb.hr b) (justId i) = some (⟨b, none, i⟩, t) ∧ Rep { m with right := t } ks := by
  obtain ⟨t1, e1, h1⟩ := RawTable.removeEntry_some (p := justId i) (h := m.hb.hr b) (h.consR rfl) rfl
    (justId_self _ _ _) (idsR h.ids)
  exact ⟨t1, e1, h.tail (h.tailL rfl) h1⟩

theorem retainDrop_rep {ps ks : List (Rec L R)} (h : Rep m (ps ++ ks)) :
    ∃ m', m.retainDrop (ps.map (keyOf m.hb)) = .ok m' ∧ Rep m' ks ∧ m'.hb = m.hb ∧ m'.counter = m.counter := by
  induction ps generalizing m with
  | nil => exact ⟨m, rfl, h, rfl, rfl⟩
  | cons p ps ih =>
    obtain ⟨e, i⟩ := p
    cases e with
    | neither => exact absurd rfl (h.nonempty ⟨neither, i⟩ (by simp))
    | someBoth a b =>
      obtain ⟨m1, e1, h1, hb1, hc1⟩ := removeVia_rep h
      obtain ⟨m2, e2, h2, hb2, hc2⟩ := ih h1
      rw [hb1] at e2
      exact ⟨m2, by simp only [List.map_cons, keyOf, leftOf, rightOf, Option.map_some, retainDrop, e1]; exact e2, h2,
        hb2.trans hb1, hc2.trans hc1⟩
    | someLeft a =>
      obtain ⟨t, e1, h1⟩ := removeLoneL_rep h
      obtain ⟨m2, e2, h2, hb2, hc2⟩ := ih h1
      exact ⟨m2, by simp only [List.map_cons, keyOf, leftOf, rightOf, Option.map_some, Option.map_none, retainDrop, e1]; exact e2,
        h2, hb2, hc2⟩
    | someRight b =>
      obtain ⟨t, e1, h1⟩ := removeLoneR_rep h
      obtain ⟨m2, e2, h2, hb2, hc2⟩ := ih h1
      exact ⟨m2, by simp only [List.map_cons, keyOf, leftOf, rightOf, Option.map_some, Option.map_none, retainDrop, e1]; exact e2,
        h2, hb2, hc2⟩

/-- `retain` visits the entries in the order of `iter` -/
theorem retain_ordered {σ : Type} (h : Repr m c) (f : σ → OptionalPair L R → Bool × σ) (s : σ) :
    ∃ (us : List (OptionalPair L R)) (m' : PartialMap L R),
      (m.iterList ++ us).Perm c ∧ (∀ e ∈ m.iterList, (leftOf e).isSome = true) ∧ (∀ e ∈ us, leftOf e = none) ∧
      m.retain f s = .ok ((split f m.iterList s).2.2, m') ∧ Repr m' ((split f m.iterList s).2.1 ++ us) ∧
      m'.hb = m.hb ∧ m'.counter = m.counter := by
  obtain ⟨qs, us, hp, hr, he, hs, hn⟩ := h.ordered
  have hit : m.iterList = qs.map Rec.e := by
    rw [iterList, iter_todo he, hr.collect (fun q hq => List.mem_append_left _ hq) hs]
  rw [hit]
  have e1 := retainScan_eq hr f s (fun q hq => List.mem_append_left _ hq) hs
  obtain ⟨m', e2, h2, hb, hc⟩ := retainDrop_rep (ps := (split (onE f) qs s).1) (ks := (split (onE f) qs s).2.1 ++ us)
    (hr.perm (by rw [← List.append_assoc]; exact (split_perm (onE f) qs s).append_right _))
  have hm : split f (qs.map Rec.e) s = ((split (onE f) qs s).1.map Rec.e, (split (onE f) qs s).2.1.map Rec.e,
      (split (onE f) qs s).2.2) := split_mapped f Rec.e qs s
  refine ⟨us.map Rec.e, m', by simpa using hp, ?_, ?_, ?_, ?_, hb, hc⟩
  · intro e he'; obtain ⟨q, hq, rfl⟩ := List.mem_map.1 he'; exact hs q hq
  · intro e he'; obtain ⟨q, hq, rfl⟩ := List.mem_map.1 he'; exact hn q hq
  · rw [hm, retain, iter_todo he, e1]
    simp only [bind, Except.bind, e2]; rfl
  · rw [hm, ← List.map_append]; exact h2.repr

/-- `retain`: asks the closure about every entry with a left item, and removes the entries for which it
returned `true`. -/
theorem retain_refines {σ : Type} (h : Repr m c) (f : σ → OptionalPair L R → Bool × σ) (s : σ) :
    ∃ (d us : List (OptionalPair L R)) (m' : PartialMap L R),
      (d ++ us).Perm c ∧ (∀ e ∈ d, (leftOf e).isSome = true) ∧ (∀ e ∈ us, leftOf e = none) ∧
      m.retain f s = .ok ((split f d s).2.2, m') ∧ Repr m' ((split f d s).2.1 ++ us) ∧
      m'.hb = m.hb ∧ m'.counter = m.counter :=
  ⟨_, retain_ordered h f s⟩

/-- the pairs of these records, each with its id -/
def recPairs (qs : List (Rec L R)) : List (L × R × Nat) := qs.filterMap fun q => (pairOf q.e).map fun p => (p.1, p.2, q.id)

/-- `retain_paired` -/
theorem retainPairedScan_eq {σ : Type} {ps qs : List (Rec L R)} (h : Rep m ps) (f : σ → L → R → Bool × σ) (s : σ)
    (hq : ∀ q ∈ qs, q ∈ ps) (hs : ∀ q ∈ qs, isPair q.e = true) :
    ∃ d k : List (Rec L R), qs.Perm (d ++ k) ∧ split (fun s p => f s p.1 p.2) (pairsOf qs) s =
        (pairsOf d, pairsOf k, (split (fun s p => f s p.1 p.2) (pairsOf qs) s).2.2) ∧
      m.retainPairedScan f (pairsOf qs) s =
        .ok ((recPairs d).map fun p => (m.hb.hl p.1, m.hb.hr p.2.1, p.2.2),
          (split (fun s p => f s p.1 p.2) (pairsOf qs) s).2.2) := by
  induction qs generalizing s with
  | nil => exact ⟨[], [], .refl _, rfl, rfl⟩
  | cons q qs ih =>
    have ih := fun s => ih s (fun x hx => hq x (List.mem_cons_of_mem _ hx)) (fun x hx => hs x (List.mem_cons_of_mem _ hx))
    have hqp := hq q (by simp)
    have hqs := hs q (by simp)
    obtain ⟨e, i⟩ := q
    cases e with
    | neither => cases hqs
    | someLeft => cases hqs
    | someRight => cases hqs
    | someBoth a b =>
      obtain ⟨x, hx, hget⟩ := h.getLeftInner_mem hqp (a := a) rfl
      cases hx
      have hc : pairsOf (⟨someBoth a b, i⟩ :: qs) = (a, b) :: pairsOf qs := rfl
      rw [hc]
      cases hf : f s a b with
      | mk x s' =>
        obtain ⟨d, k, h1, h2, h3⟩ := ih s'
        cases x with
        | false =>
          refine ⟨d, ⟨someBoth a b, i⟩ :: k, (h1.cons _).trans List.perm_middle.symm, ?_, ?_⟩
          · simp only [split, hf]; rw [h2]; rfl
          · simp only [retainPairedScan, hf, h3, split]
        | true =>
          refine ⟨⟨someBoth a b, i⟩ :: d, k, h1.cons _, ?_, ?_⟩
          · simp only [split, hf]; rw [h2]; rfl
          · simp only [retainPairedScan, hf, hget, h3, bind, Except.bind, split]; rfl

theorem retainPairedDrop_rep {ps ks : List (Rec L R)} (h : Rep m (ps ++ ks)) (hs : ∀ q ∈ ps, isPair q.e = true) :
    ∃ m', m.retainPairedDrop ((recPairs ps).map fun p => (m.hb.hl p.1, m.hb.hr p.2.1, p.2.2)) = m' ∧ Rep m' ks ∧
      m'.hb = m.hb ∧ m'.counter = m.counter := by
  induction ps generalizing m with
  | nil => exact ⟨m, rfl, h, rfl, rfl⟩
  | cons p ps ih =>
    have hps := hs p (by simp)
    have hs' : ∀ q ∈ ps, isPair q.e = true := fun x hx => hs x (List.mem_cons_of_mem _ hx)
    obtain ⟨e, i⟩ := p
    cases e with
    | neither => cases hps
    | someLeft => cases hps
    | someRight => cases hps
    | someBoth a b =>
      obtain ⟨m1, e1, h1, hb1, hc1⟩ := removeVia_rep h
      obtain ⟨m2, e2, h2, hb2, hc2⟩ := ih h1 hs'
      rw [hb1] at e2
      refine ⟨m2, ?_, h2, hb2.trans hb1, hc2.trans hc1⟩
      rw [← e2, ← e1]; rfl

theorem pairsOf_filter (qs : List (Rec L R)) : pairsOf (qs.filter fun q => isPair q.e) = pairsOf qs := by
  rw [pairsOf, pairsOf, List.filterMap_filter]
  refine congrArg (List.filterMap · qs) (funext fun q => ?_)
  cases q.e <;> rfl

theorem pairsOf_both {qs : List (Rec L R)} (h : ∀ q ∈ qs, isPair q.e = true) :
    (pairsOf qs).map (fun p => someBoth p.1 p.2) = qs.map Rec.e := by
  induction qs with
  | nil => rfl
  | cons q qs ih =>
    have hq := h q (by simp)
    have ih := ih fun x hx => h x (List.mem_cons_of_mem _ hx)
    obtain ⟨e, i⟩ := q
    cases e with
    | neither => cases hq
    | someLeft => cases hq
    | someRight => cases hq
    | someBoth a b => exact congrArg (someBoth a b :: ·) ih

/-- `retain_paired` visits the pairs in the order of `iter_paired` -/
theorem retainPaired_ordered {σ : Type} (h : Repr m c) (f : σ → L → R → Bool × σ) (s : σ) :
    ∃ (d : List (L × R)) (m' : PartialMap L R), m.iterPairedList = .ok d ∧ d.Perm (c.filterMap pairOf) ∧
      m.retainPaired f s = .ok ((split (fun s p => f s p.1 p.2) d s).2.2, m') ∧
      Repr m' ((split (fun s p => f s p.1 p.2) d s).2.1.map (fun p => someBoth p.1 p.2) ++ c.filter fun e => !isPair e) ∧
      m'.hb = m.hb ∧ m'.counter = m.counter := by
  obtain ⟨qs, us, hp, hr, he, hs, hn⟩ := h.ordered
  have hpairs : ∀ q ∈ qs.filter (fun q => isPair q.e), isPair q.e = true := fun q hq => (List.mem_filter.1 hq).2
  obtain ⟨d, k, h1, h2, h3⟩ := retainPairedScan_eq (qs := qs.filter fun q => isPair q.e) hr f s
    (fun q hq => List.mem_append_left _ (List.mem_filter.1 hq).1) hpairs
  have hk : ∀ q ∈ k, isPair q.e = true := fun q hq => hpairs q (h1.mem_iff.2 (List.mem_append_right _ hq))
  have hd : ∀ q ∈ d, isPair q.e = true := fun q hq => hpairs q (h1.mem_iff.2 (List.mem_append_left _ hq))
  have hfull : (qs ++ us).Perm (d ++ (k ++ ((qs ++ us).filter fun q => !isPair q.e))) := by
    have e1 : us.filter (fun q => isPair q.e) = [] := by
      rw [List.filter_eq_nil_iff]; intro u hu
      have := hn u hu
      revert this; cases u.e <;> simp [leftOf, isPair]
    have e2 := List.filter_append_perm (fun q : Rec L R => isPair q.e) (qs ++ us)
    have e3 : (qs ++ us).filter (fun q => isPair q.e) = qs.filter (fun q => isPair q.e) := by
      rw [List.filter_append, e1, List.append_nil]
    rw [e3] at e2
    rw [← List.append_assoc]
    exact e2.symm.trans (h1.append_right _)
  obtain ⟨m', e2, h4, hb, hc⟩ := retainPairedDrop_rep (hr.perm hfull) hd
  rw [pairsOf_filter] at h2 h3
  refine ⟨pairsOf qs, m', iterPairedList_eq hr he hs, pairsOf_perm hp hn, ?_, ?_, hb, hc⟩
  · rw [retainPaired, iterPairedList_eq hr he hs]
    simp only [bind, Except.bind, h3, e2]; rfl
  · refine ⟨_, h4, ?_⟩
    rw [h2, List.map_append]
    simp only
    rw [pairsOf_both hk]
    refine List.Perm.append_left _ ?_
    have := hp.filter fun e => !isPair e
    rw [List.filter_map] at this
    exact this

/-- `retain_paired`: asks the closure about every pair and removes those for which it returned `true`. -/
theorem retainPaired_refines {σ : Type} (h : Repr m c) (f : σ → L → R → Bool × σ) (s : σ) :
    ∃ (d : List (L × R)) (m' : PartialMap L R), d.Perm (c.filterMap pairOf) ∧
      m.retainPaired f s = .ok ((split (fun s p => f s p.1 p.2) d s).2.2, m') ∧
      Repr m' ((split (fun s p => f s p.1 p.2) d s).2.1.map (fun p => someBoth p.1 p.2) ++ c.filter fun e => !isPair e) ∧
      m'.hb = m.hb ∧ m'.counter = m.counter := by
  obtain ⟨d, m', -, e⟩ := retainPaired_ordered h f s
  exact ⟨d, m', e⟩

theorem retainUnpairedScan_eq {σ : Type} {ps qs : List (Rec L R)} (h : Rep m ps) (f : σ → OptionalPair L R → Bool × σ) (s : σ)
    (hq : ∀ q ∈ qs, q ∈ ps) (hs : ∀ q ∈ qs, isPair q.e = false) :
    m.retainUnpairedScan f (qs.map Rec.e) s =
      .ok ((split (onE f) qs s).1.map (keyOf m.hb), (split (onE f) qs s).2.2) := by
  induction qs generalizing s with
  | nil => rfl
  | cons q qs ih =>
    have ih := fun s => ih s (fun x hx => hq x (List.mem_cons_of_mem _ hx)) (fun x hx => hs x (List.mem_cons_of_mem _ hx))
    have hqp := hq q (by simp)
    have hqs := hs q (by simp)
    have hne := h.nonempty q hqp
    cases hf : f s q.e with
    | mk x s' =>
      have hf' : onE f s q = (x, s') := hf
      cases x with
      | false => simp only [List.map_cons, retainUnpairedScan, hf, split, hf', ih s']
      | true =>
        simp only [List.map_cons, split, hf']
        obtain ⟨e, i⟩ := q
        cases e with
        | neither => exact absurd rfl hne
        | someBoth => cases hqs
        | someLeft a =>
          obtain ⟨x, hx, hget⟩ := h.getLeftInner_mem hqp (a := a) rfl
          cases hx
          have hget : m.left.get (m.hb.hl a) (equivalentKey a) = _ := hget
          simp only [retainUnpairedScan, hf, hget, ih s', bind, Except.bind]; rfl
        | someRight b =>
          obtain ⟨x, hx, hget⟩ := h.getRightInner_mem hqp (a := b) rfl
          cases hx
          have hget : m.right.get (m.hb.hr b) (equivalentKey b) = _ := hget
          simp only [retainUnpairedScan, hf, hget, ih s', bind, Except.bind]; rfl

theorem retainUnpairedDrop_rep {ps ks : List (Rec L R)} (h : Rep m (ps ++ ks)) (hs : ∀ q ∈ ps, isPair q.e = false) :
    ∃ m', m.retainUnpairedDrop (ps.map (keyOf m.hb)) = .ok m' ∧ Rep m' ks ∧ m'.hb = m.hb ∧ m'.counter = m.counter := by
  induction ps generalizing m with
  | nil => exact ⟨m, rfl, h, rfl, rfl⟩
  | cons p ps ih =>
    have hps := hs p (by simp)
    have ih := fun m h => @ih m h (fun x hx => hs x (List.mem_cons_of_mem _ hx))
    obtain ⟨e, i⟩ := p
    cases e with
    | neither => exact absurd rfl (h.nonempty ⟨neither, i⟩ (by simp))
    | someBoth a b => cases hps
    | someLeft a =>
      obtain ⟨t, e1, h1⟩ := removeLoneL_rep h
      obtain ⟨m2, e2, h2, hb2, hc2⟩ := ih _ h1
      exact ⟨m2, by simp only [List.map_cons, keyOf, leftOf, rightOf, Option.map_some, Option.map_none, retainUnpairedDrop, e1]; exact e2,
        h2, hb2, hc2⟩
    | someRight b =>
      obtain ⟨t, e1, h1⟩ := removeLoneR_rep h
      obtain ⟨m2, e2, h2, hb2, hc2⟩ := ih _ h1
      exact ⟨m2, by simp only [List.map_cons, keyOf, leftOf, rightOf, Option.map_some, Option.map_none, retainUnpairedDrop, e1]; exact e2,
        h2, hb2, hc2⟩

/-- the lone items come from the records -/
theorem Repr.lones (h : Repr m c) : ∃ qs us : List (Rec L R), Rep m (qs ++ us) ∧ ((qs ++ us).map Rec.e).Perm c ∧
    m.iterUnpairedList = qs.map Rec.e ∧ (∀ q ∈ qs, isPair q.e = false) ∧ ∀ u ∈ us, isPair u.e = true := by
  obtain ⟨ps, h1, h2⟩ := h
  have hl := iterUnpairedList_refines ⟨ps, h1, .refl _⟩
  rw [List.filter_map] at hl
  obtain ⟨qs, hq, he⟩ := perm_map_inv hl
  have hfull : ps.Perm (qs ++ ps.filter fun q => isPair q.e) := by
    have := List.filter_append_perm (fun q : Rec L R => isPair q.e) ps
    exact this.symm.trans (List.perm_append_comm.trans (hq.append_right _))
  refine ⟨qs, ps.filter fun q => isPair q.e, h1.perm hfull, (hfull.map _).symm.trans h2, he, ?_, ?_⟩
  · intro q hm
    have := (List.mem_filter.1 (hq.mem_iff.2 hm)).2
    simpa using this
  · intro q hm; exact (List.mem_filter.1 hm).2

/-- `retain_unpaired` visits the lone items in the order of `iter_unpaired` -/
theorem retainUnpaired_ordered {σ : Type} (h : Repr m c) (f : σ → OptionalPair L R → Bool × σ) (s : σ) :
    ∃ (m' : PartialMap L R), m.iterUnpairedList.Perm (c.filter fun e => !isPair e) ∧
      m.retainUnpaired f s = .ok ((split f m.iterUnpairedList s).2.2, m') ∧
      Repr m' ((split f m.iterUnpairedList s).2.1 ++ c.filter isPair) ∧
      m'.hb = m.hb ∧ m'.counter = m.counter := by
  obtain ⟨qs, us, hr, hp, he, hs, hn⟩ := h.lones
  have e1 := retainUnpairedScan_eq hr f s (fun q hq => List.mem_append_left _ hq) hs
  have hsp := split_perm (onE f) qs s
  obtain ⟨m', e2, h2, hb, hc⟩ := retainUnpairedDrop_rep (ps := (split (onE f) qs s).1) (ks := (split (onE f) qs s).2.1 ++ us)
    (hr.perm (by rw [← List.append_assoc]; exact hsp.append_right _)) (fun q hq => hs q (hsp.mem_iff.2 (List.mem_append_left _ hq)))
  have hm : split f (qs.map Rec.e) s = ((split (onE f) qs s).1.map Rec.e, (split (onE f) qs s).2.1.map Rec.e,
      (split (onE f) qs s).2.2) := split_mapped f Rec.e qs s
  have hfq : (qs.map Rec.e).filter isPair = [] := by
    rw [List.filter_eq_nil_iff]; intro e he'; obtain ⟨q, hq, rfl⟩ := List.mem_map.1 he'; simp [hs q hq]
  have hfu : (us.map Rec.e).filter isPair = us.map Rec.e := by
    rw [List.filter_eq_self]; intro e he'; obtain ⟨q, hq, rfl⟩ := List.mem_map.1 he'; exact hn q hq
  rw [he]
  refine ⟨m', by rw [← he]; exact iterUnpairedList_refines h, ?_, ⟨_, h2, ?_⟩, hb, hc⟩
  · rw [hm, retainUnpaired, he, e1]
    simp only [bind, Except.bind, e2]; rfl
  · rw [hm, List.map_append]
    refine List.Perm.append_left _ ?_
    have := hp.filter isPair
    rw [List.map_append, List.filter_append, hfq, hfu] at this
    exact this

/-- `retain_unpaired`: asks the closure about every lone item and removes those for which it returned
`true`. -/
theorem retainUnpaired_refines {σ : Type} (h : Repr m c) (f : σ → OptionalPair L R → Bool × σ) (s : σ) :
    ∃ (d : List (OptionalPair L R)) (m' : PartialMap L R), d.Perm (c.filter fun e => !isPair e) ∧
      m.retainUnpaired f s = .ok ((split f d s).2.2, m') ∧
      Repr m' ((split f d s).2.1 ++ c.filter isPair) ∧
      m'.hb = m.hb ∧ m'.counter = m.counter :=
  ⟨_, retainUnpaired_ordered h f s⟩

end Verif.PartialMap
