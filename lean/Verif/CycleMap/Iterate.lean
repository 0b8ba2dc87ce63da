import Verif.CycleMap.Refine
/-! Iterators, bulk operations, capacity and comparison of `CycleMap`. -/
set_option linter.unusedSectionVars false
set_option linter.unusedSimpArgs false
namespace Verif.CycleMap
open CycleSpec OptionalPair

variable [RawImpl] [LawfulRaw] {L R : Type} [BEq L] [BEq R] [EquivBEq L] [EquivBEq R]
variable {m : CycleMap L R} {c : List (L × R)}

/-! ### Construction, clear, capacity -/

theorem withCapacity_repr (n : Nat) (hb : BuildHasher L R) : Repr (withCapacityAndHasher n hb) [] := by
  refine ⟨[], ⟨?_, ?_, .nil, by simp⟩, .refl _⟩ <;>
    simp [withCapacityAndHasher, RawTable.withCapacity_entries]

theorem withHasher_repr (hb : BuildHasher L R) : Repr (withHasher hb) [] := withCapacity_repr 0 hb

theorem Rep.of_tables {ps} (h : Rep m ps) {left' : RawTable (MappingPair L)} {right' : RawTable (MappingPair R)}
    (hl : left'.entries.Perm m.left.entries) (hr : right'.entries.Perm m.right.entries) :
    Rep { m with left := left', right := right' } ps :=
  ⟨hl.trans h.left, hr.trans h.right, h.apart, h.bound⟩

theorem Repr.of_tables (h : Repr m c) {left' : RawTable (MappingPair L)} {right' : RawTable (MappingPair R)}
    (hl : left'.entries.Perm m.left.entries) (hr : right'.entries.Perm m.right.entries) :
    Repr { m with left := left', right := right' } c := by
  obtain ⟨ps, h1, h2⟩ := h
  exact ⟨ps, h1.of_tables hl hr, h2⟩

theorem Repr.hashesL (h : Repr m c) : ∀ e ∈ m.left.entries, e.2.hashWith m.hb.hl = e.1 := by
  obtain ⟨ps, h1, -⟩ := h
  exact CycleMap.hashesL h1.left

theorem Repr.hashesR (h : Repr m c) : ∀ e ∈ m.right.entries, e.2.hashWith m.hb.hr = e.1 := by
  obtain ⟨ps, h1, -⟩ := h
  exact CycleMap.hashesR h1.right

theorem clear_refines (m : CycleMap L R) : Repr m.clear [] := by
  refine ⟨[], ⟨?_, ?_, .nil, by simp⟩, .refl _⟩ <;> simp [clear, RawTable.clear_entries]

theorem shrinkTo_refines (h : Repr m c) (n : Nat) : Repr (m.shrinkTo n) c :=
  h.of_tables (RawTable.shrinkTo_perm _ _ h.hashesL) (RawTable.shrinkTo_perm _ _ h.hashesR)

theorem shrinkToFit_refines (h : Repr m c) : Repr m.shrinkToFit c :=
  h.of_tables (RawTable.shrinkTo_perm _ _ h.hashesL) (RawTable.shrinkTo_perm _ _ h.hashesR)

theorem reserve_refines (h : Repr m c) (n : Nat) : Repr (m.reserve n) c :=
  h.of_tables (RawTable.reserve_perm _ _ h.hashesL) (RawTable.reserve_perm _ _ h.hashesR)

theorem tryReserve_refines (h : Repr m c) (n : Nat) (a b : Bool) :
    (m.tryReserve n a b).1 = (a && b) ∧ Repr (m.tryReserve n a b).2 c := by
  cases a <;> cases b <;> simp only [tryReserve]
  · exact ⟨rfl, h⟩
  · exact ⟨rfl, h⟩
  · exact ⟨rfl, h.of_tables (right' := m.right) (RawTable.reserve_perm _ _ h.hashesL) (.refl _)⟩
  · exact ⟨rfl, h.of_tables (RawTable.reserve_perm _ _ h.hashesL) (RawTable.reserve_perm _ _ h.hashesR)⟩

theorem len_refines (h : Repr m c) : m.len = c.length := by
  obtain ⟨ps, h1, h2⟩ := h
  rw [len, RawTable.len, h1.left.length_eq, ← h2.length_eq]; simp

theorem isEmpty_refines (h : Repr m c) : m.isEmpty = c.isEmpty := by
  rw [isEmpty, len_refines h]; cases c <;> rfl

/-! ### Iteration -/

/-- list the records in the order of the left table -/
theorem Rep.ordered {ps} (h : Rep m ps) :
    ∃ qs, ps.Perm qs ∧ Rep m qs ∧ m.left.entries = qs.map (toL m.hb) := by
  obtain ⟨qs, hq, he⟩ := perm_map_inv h.left
  exact ⟨qs, hq, h.perm hq, he⟩

theorem Repr.ordered (h : Repr m c) :
    ∃ qs, (qs.map Rec.pair).Perm c ∧ Rep m qs ∧ m.left.entries = qs.map (toL m.hb) := by
  obtain ⟨ps, h1, h2⟩ := h
  obtain ⟨qs, hq, h3, h4⟩ := h1.ordered
  exact ⟨qs, (hq.map _).symm.trans h2, h3, h4⟩

theorem Rep.getRight_mem {ps} (h : Rep m ps) {p} (hp : p ∈ ps) : m.getRight p.l = some p.r := by
  obtain ⟨qs, hq⟩ := perm_cons_of_mem hp
  exact getRight_some (h.perm hq) BEq.rfl

theorem Rep.getLeftInner_mem {ps} (h : Rep m ps) {p} (hp : p ∈ ps) :
    m.getLeftInner p.l = some ⟨p.l, m.hb.hr p.r, p.id⟩ := by
  obtain ⟨qs, hq⟩ := perm_cons_of_mem hp
  exact get_left_some (h.perm hq) BEq.rfl

/-- the elements an iteration over these records walks through -/
def elemsL (hb : BuildHasher L R) (qs : List (Rec L R)) : List (MappingPair L) := qs.map fun q => (toL hb q).2

theorem Rep.next_cons {ps} (h : Rep m ps) {q} (hq : q ∈ ps) (rest : List (MappingPair L)) :
    Iter.next ⟨(toL m.hb q).2 :: rest⟩ m = .ok (some (q.pair, ⟨rest⟩)) := by
  simp [Iter.next, toL, h.getRight_mem hq, Rec.pair]

theorem Rep.collect {ps} (h : Rep m ps) {qs} (hq : ∀ q ∈ qs, q ∈ ps) :
    Iter.collect m (elemsL m.hb qs) = .ok (qs.map Rec.pair) := by
  induction qs with
  | nil => rfl
  | cons q qs ih =>
    have ih := ih fun x hx => hq x (List.mem_cons_of_mem _ hx)
    simp only [elemsL, List.map_cons, Iter.collect] at ih ⊢
    rw [h.next_cons (hq q (by simp))]
    simp only [bind, Except.bind, ih]; rfl

theorem Rep.take {ps} (h : Rep m ps) {qs} (hq : ∀ q ∈ qs, q ∈ ps) (k : Nat) :
    Iter.take m k ⟨elemsL m.hb qs⟩ = .ok ((qs.take k).map Rec.pair, ⟨elemsL m.hb (qs.drop k)⟩) := by
  induction k generalizing qs with
  | zero => rfl
  | succ k ih =>
    cases qs with
    | nil => rfl
    | cons q qs =>
      have ih := ih fun x hx => hq x (List.mem_cons_of_mem _ hx)
      simp only [elemsL, List.map_cons, Iter.take] at ih ⊢
      rw [h.next_cons (hq q (by simp))]
      simp only [bind, Except.bind, ih]; rfl

theorem iter_todo {qs} (he : m.left.entries = qs.map (toL m.hb)) : m.iter.todo = elemsL m.hb qs := by
  simp [iter, RawTable.toList, he, elemsL]

theorem iterList_refines (h : Repr m c) : ∃ ps, m.iterList = .ok ps ∧ ps.Perm c := by
  obtain ⟨qs, hp, hr, he⟩ := h.ordered
  refine ⟨_, ?_, hp⟩
  rw [iterList, iter_todo he]
  exact hr.collect fun q hq => hq

theorem iterLeft_refines (h : Repr m c) : m.iterLeft.Perm (c.map (·.1)) := by
  obtain ⟨ps, h1, h2⟩ := h
  have := ((h1.left.map (·.2)).map (·.value)).trans (l₃ := (ps.map Rec.pair).map (·.1)) ?_
  · exact this.trans (h2.map _)
  · simp [Rec.pair, toL, Function.comp_def]

theorem iterRight_refines (h : Repr m c) : m.iterRight.Perm (c.map (·.2)) := by
  obtain ⟨ps, h1, h2⟩ := h
  have := ((h1.right.map (·.2)).map (·.value)).trans (l₃ := (ps.map Rec.pair).map (·.2)) ?_
  · exact this.trans (h2.map _)
  · simp [Rec.pair, toR, Function.comp_def]

/-- everything the API shows -/
theorem Repr.shows (h : Repr m c) : Shows m c where
  oneToOne := h.oneToOne
  iter := iterList_refines h
  iterLeft := iterLeft_refines h
  iterRight := iterRight_refines h
  len := len_refines h
  isEmpty := isEmpty_refines h
  getRight := getRight_refines h
  getLeft := getLeft_refines h
  containsLeft := containsLeft_refines h
  containsRight := containsRight_refines h
  arePaired := arePaired_refines h

/-! ### retain -/

/-- the closure on records -/
def onRec {σ : Type} (f : σ → L → R → Bool × σ) (s : σ) (q : Rec L R) : Bool × σ := f s q.l q.r

/-- the closure on pairs -/
def onPair {σ : Type} (f : σ → L → R → Bool × σ) (s : σ) (q : L × R) : Bool × σ := f s q.1 q.2

theorem split_perm {σ α : Type} (f : σ → α → Bool × σ) (as : List α) (s : σ) :
    as.Perm ((split f as s).1 ++ (split f as s).2.1) := by
  induction as generalizing s with
  | nil => exact .refl _
  | cons a as ih =>
    unfold split
    split
    · rename_i s' _; exact (ih s').cons a
    · rename_i s' _; exact ((ih s').cons a).trans List.perm_middle.symm

omit [EquivBEq L] [EquivBEq R] in
theorem split_map {σ : Type} (f : σ → L → R → Bool × σ) (qs : List (Rec L R)) (s : σ) :
    split (onPair f) (qs.map Rec.pair) s =
      ((split (onRec f) qs s).1.map Rec.pair, (split (onRec f) qs s).2.1.map Rec.pair, (split (onRec f) qs s).2.2) := by
  induction qs generalizing s with
  | nil => rfl
  | cons q qs ih =>
    simp only [List.map_cons, split]
    have : onPair f s q.pair = onRec f s q := rfl
    rw [this]
    cases hf : onRec f s q with
    | mk b s' => cases b <;> simp [ih s']

theorem split_append {σ α : Type} (f : σ → α → Bool × σ) (as bs : List α) (s : σ) :
    split f (as ++ bs) s =
      ((split f as s).1 ++ (split f bs (split f as s).2.2).1,
       (split f as s).2.1 ++ (split f bs (split f as s).2.2).2.1,
       (split f bs (split f as s).2.2).2.2) := by
  induction as generalizing s with
  | nil => rfl
  | cons a as ih =>
    simp only [List.cons_append, split]
    cases hf : f s a with
    | mk b s' => cases b <;> simp [ih s']

def keyOf (hb : BuildHasher L R) (q : Rec L R) : UInt64 × UInt64 × Nat := (hb.hl q.l, hb.hr q.r, q.id)

theorem Rep.retainScan {σ : Type} {ps} (h : Rep m ps) (f : σ → L → R → Bool × σ) {qs} (hq : ∀ q ∈ qs, q ∈ ps)
    (s : σ) : m.retainScan f (elemsL m.hb qs) s =
      .ok ((split (onRec f) qs s).2.1.map (keyOf m.hb), (split (onRec f) qs s).2.2) := by
  induction qs generalizing s with
  | nil => rfl
  | cons q qs ih =>
    have ih := ih fun x hx => hq x (List.mem_cons_of_mem _ hx)
    have hqm := hq q (by simp)
    simp only [elemsL, List.map_cons, CycleMap.retainScan] at ih ⊢
    rw [h.next_cons hqm]
    simp only [bind, Except.bind, split, Rec.pair]
    have : onRec f s q = f s q.l q.r := rfl
    rw [this]
    cases hf : f s q.l q.r with
    | mk b s' =>
      cases b with
      | true => exact ih s'
      | false => simp only [h.getLeftInner_mem hqm, ih s']; rfl

theorem retainDrop_rep {ps ks : List (Rec L R)} (h : Rep m (ps ++ ks)) :
    ∃ m', m.retainDrop (ps.map (keyOf m.hb)) = .ok m' ∧ Rep m' ks ∧ m'.hb = m.hb ∧ m'.counter = m.counter := by
  induction ps generalizing m with
  | nil => exact ⟨m, rfl, h, rfl, rfl⟩
  | cons p ps ih =>
    obtain ⟨m1, e1, h1, hb1, c1⟩ := removeViaHashesAndId_some h
    obtain ⟨m2, e2, h2, hb2, c2⟩ := ih h1
    refine ⟨m2, ?_, h2, hb2.trans hb1, c2.trans c1⟩
    rw [hb1] at e2
    simp only [List.map_cons, keyOf, retainDrop, e1, bind, Except.bind]
    exact e2

/-- `retain` visits the pairs in the order of the left table -/
theorem retain_ordered {σ : Type} {qs : List (Rec L R)} (hr : Rep m qs) (he : m.left.entries = qs.map (toL m.hb))
    (f : σ → L → R → Bool × σ) (s : σ) :
    ∃ m' : CycleMap L R, m.retain f s = .ok ((split (onPair f) (qs.map Rec.pair) s).2.2, m') ∧
      Repr m' (split (onPair f) (qs.map Rec.pair) s).1 ∧ m'.hb = m.hb ∧ m'.counter = m.counter := by
  have e1 := hr.retainScan f (fun q hq => hq) s
  obtain ⟨m', e2, h2, hb, hc⟩ := retainDrop_rep (hr.perm ((split_perm (onRec f) qs s).trans List.perm_append_comm))
  refine ⟨m', ?_, ?_, hb, hc⟩
  · rw [retain, iter_todo he, e1]
    simp only [bind, Except.bind, e2, split_map]; rfl
  · rw [split_map]; exact h2.repr

theorem retain_refines {σ : Type} (h : Repr m c) (f : σ → L → R → Bool × σ) (s : σ) :
    ∃ (d : List (L × R)) (m' : CycleMap L R), d.Perm c ∧ m.retain f s = .ok ((split (onPair f) d s).2.2, m') ∧
      Repr m' (split (onPair f) d s).1 ∧ m'.hb = m.hb ∧ m'.counter = m.counter := by
  obtain ⟨qs, hp, hr, he⟩ := h.ordered
  obtain ⟨m', e⟩ := retain_ordered hr he f s
  exact ⟨_, m', hp, e⟩

/-! ### drain -/

theorem justId_self {T : Type} (v : T) (h : UInt64) (i : Nat) : justId i ⟨v, h, i⟩ = true := by simp [justId]

omit [EquivBEq L] [EquivBEq R] in
/-- removing the right entry of a record by its id -/
theorem removeR_justId {hb : BuildHasher L R} {t : RawTable (MappingPair R)} {q : Rec L R} {qs}
    (ht : t.entries.Perm ((q :: qs).map (toR hb))) (ha : (q :: qs).Pairwise (·.id ≠ ·.id)) :
    ∃ t', t.removeEntry (hb.hr q.r) (justId q.id) = some (⟨q.r, hb.hl q.l, q.id⟩, t') ∧
      t'.entries.Perm (qs.map (toR hb)) := by
  refine RawTable.removeEntry_some ht rfl (justId_self _ _ _) (forall_mem_map_of fun x hx => ?_)
  have := (List.pairwise_cons.1 ha).1 x hx
  simp [justId, toR, this]

omit [EquivBEq L] [EquivBEq R] in
theorem drain_take {hb : BuildHasher L R} (n : Nat) {qs : List (Rec L R)} {t : RawTable (MappingPair R)}
    (ht : t.entries.Perm (qs.map (toR hb))) (ha : qs.Pairwise (·.id ≠ ·.id)) :
    ∃ t', DrainIter.take n ⟨elemsL hb qs, t⟩ = .ok ((qs.take n).map Rec.pair, ⟨elemsL hb (qs.drop n), t'⟩) ∧
      t'.entries.Perm ((qs.drop n).map (toR hb)) := by
  induction n generalizing qs t with
  | zero => exact ⟨t, rfl, ht⟩
  | succ n ih =>
    cases qs with
    | nil => exact ⟨t, rfl, by simpa using ht⟩
    | cons q qs =>
      obtain ⟨t1, e1, h1⟩ := removeR_justId ht ha
      obtain ⟨t2, e2, h2⟩ := ih h1 (List.pairwise_cons.1 ha).2
      refine ⟨t2, ?_, h2⟩
      simp only [DrainIter.take, DrainIter.next, elemsL, List.map_cons, toL, e1, bind, Except.bind] at e2 ⊢
      rw [e2]; rfl

theorem drainTake_refines (h : Repr m c) (n : Nat) :
    ∃ (d : List (L × R)) (m' : CycleMap L R), d.Perm c ∧ m.drainTake n = .ok (d.take n, m') ∧ m'.hb = m.hb ∧ m'.counter = 0 ∧
      m'.left.entries = [] ∧ ∃ rs : List (Rec L R), rs.map Rec.pair = d.drop n ∧
        m'.right.entries.Perm (rs.map (toR m.hb)) ∧ rs.Pairwise Apart := by
  obtain ⟨qs, hp, hr, he⟩ := h.ordered
  obtain ⟨t', e, ht'⟩ := drain_take (hb := m.hb) n hr.right (hr.apart.imp fun h => h.1)
  have hd : m.drain = ⟨elemsL m.hb qs, m.right⟩ := by simp [drain, RawTable.toList, he, elemsL]
  refine ⟨_, { m with counter := 0, left := m.left.clear, right := t' }, hp, ?_, rfl, rfl, RawTable.clear_entries _,
    qs.drop n, by simp, ht', hr.apart.sublist (List.drop_sublist _ _)⟩
  simp only [drainTake, hd, e, bind, Except.bind]; simp [pure, Except.pure]

theorem drain_refines (h : Repr m c) {n : Nat} (hn : c.length ≤ n) :
    ∃ (d : List (L × R)) (m' : CycleMap L R), d.Perm c ∧ m.drainTake n = .ok (d, m') ∧ Repr m' [] ∧ m'.hb = m.hb ∧ m'.counter = 0 := by
  obtain ⟨d, m', hp, e, hb, hc, hl, rs, hrs, hr, _⟩ := drainTake_refines h n
  have hlen : d.length ≤ n := by rw [hp.length_eq]; exact hn
  rw [List.drop_eq_nil_of_le hlen] at hrs
  rw [List.map_eq_nil_iff] at hrs
  subst hrs
  rw [List.take_of_length_le hlen] at e
  refine ⟨d, m', hp, e, ⟨[], ⟨?_, ?_, .nil, by simp⟩, .refl _⟩, hb, hc⟩
  · rw [hl]; exact .refl _
  · simpa using hr

/-! ### drain_filter -/

omit [EquivBEq L] [EquivBEq R] in
theorem drainFilter_next {σ : Type} {hb : BuildHasher L R} (f : σ → L → R → Bool × σ) {ks qs : List (Rec L R)}
    {t : RawTable (MappingPair R)} (s : σ) (ht : t.entries.Perm ((ks ++ qs).map (toR hb)))
    (ha : (ks ++ qs).Pairwise (·.id ≠ ·.id)) :
    ∃ qs1 qs2 t' o, qs = qs1 ++ qs2 ∧
      DrainFilter.next f (ks.map (toL hb)) (qs.map (toL hb)) t s =
        .ok (o, ⟨(ks ++ (split (onRec f) qs1 s).2.1).map (toL hb), qs2.map (toL hb), t', (split (onRec f) qs1 s).2.2⟩) ∧
      t'.entries.Perm ((ks ++ (split (onRec f) qs1 s).2.1 ++ qs2).map (toR hb)) ∧
      ((o = none ∧ (split (onRec f) qs1 s).1 = [] ∧ qs2 = []) ∨
        ∃ p, o = some p.pair ∧ (split (onRec f) qs1 s).1 = [p]) := by
  induction qs generalizing ks s with
  | nil => exact ⟨[], [], t, none, rfl, by simp [DrainFilter.next, split], by simpa [split] using ht, .inl ⟨rfl, rfl, rfl⟩⟩
  | cons q qs ih =>
    have hpm : (ks ++ q :: qs).Perm (q :: (ks ++ qs)) := List.perm_middle
    obtain ⟨t1, e1, h1⟩ := removeR_justId (ht.trans (hpm.map _)) ((hpm.pairwise_iff (fun h => h.symm)).1 ha)
    have hf0 : onRec f s q = f s q.l q.r := rfl
    cases hf : f s q.l q.r with
    | mk b s' =>
      cases b with
      | true =>
        refine ⟨[q], qs, t1, some q.pair, rfl, ?_, ?_, .inr ⟨q, rfl, ?_⟩⟩
        · simp only [DrainFilter.next, List.map_cons, toL, e1, hf, split, hf0, Rec.pair, List.append_nil]
        · simpa [split, hf0, hf] using h1
        · simp [split, hf0, hf]
      | false =>
        obtain ⟨qs1, qs2, t', o, hqs, e, hp, hor⟩ := ih (ks := ks ++ [q]) s' (by simpa using ht) (by simpa using ha)
        have hs : split (onRec f) (q :: qs1) s =
          ((split (onRec f) qs1 s').1, q :: (split (onRec f) qs1 s').2.1, (split (onRec f) qs1 s').2.2) := by
          simp [split, hf0, hf]
        refine ⟨q :: qs1, qs2, t', o, by simp [hqs], ?_, ?_, ?_⟩
        · simp only [DrainFilter.next, List.map_cons, toL, e1, hf, hs] at e ⊢
          rw [List.map_append] at e
          simp only [List.map_cons, List.map_nil, toL] at e
          rw [e]; simp
        · rw [hs]; simpa using hp
        · rw [hs]; exact hor

omit [EquivBEq L] [EquivBEq R] in
theorem drainFilter_take {σ : Type} {hb : BuildHasher L R} (f : σ → L → R → Bool × σ) (n : Nat)
    {ks qs : List (Rec L R)} {t : RawTable (MappingPair R)} (s : σ)
    (ht : t.entries.Perm ((ks ++ qs).map (toR hb))) (ha : (ks ++ qs).Pairwise (·.id ≠ ·.id)) :
    ∃ qs1 qs2 t', qs = qs1 ++ qs2 ∧
      DrainFilter.take f n ⟨ks.map (toL hb), qs.map (toL hb), t, s⟩ =
        .ok ((split (onRec f) qs1 s).1.map Rec.pair,
          ⟨(ks ++ (split (onRec f) qs1 s).2.1).map (toL hb), qs2.map (toL hb), t', (split (onRec f) qs1 s).2.2⟩) ∧
      t'.entries.Perm ((ks ++ (split (onRec f) qs1 s).2.1 ++ qs2).map (toR hb)) ∧
      (split (onRec f) qs1 s).1.length ≤ n ∧ ((split (onRec f) qs1 s).1.length = n ∨ qs2 = []) := by
  induction n generalizing ks qs t s with
  | zero => exact ⟨[], qs, t, rfl, by simp [DrainFilter.take, split], by simpa [split] using ht, by simp [split], .inl rfl⟩
  | succ n ih =>
    obtain ⟨a1, a2, t1, o, hq, e1, hp1, hor⟩ := drainFilter_next f s ht ha
    rcases hor with ⟨rfl, hnil, rfl⟩ | ⟨p, rfl, hone⟩
    · refine ⟨a1, [], t1, hq, ?_, hp1, by simp [hnil], .inr rfl⟩
      simp only [DrainFilter.take, e1, bind, Except.bind, hnil]; rfl
    · have hsub : (ks ++ (split (onRec f) a1 s).2.1 ++ a2).Pairwise (·.id ≠ ·.id) := by
        have hperm := split_perm (onRec f) a1 s
        have : (ks ++ qs).Perm ((split (onRec f) a1 s).1 ++ (ks ++ (split (onRec f) a1 s).2.1 ++ a2)) := by
          rw [hq]
          refine ((hperm.append_right a2).append_left ks).trans ?_
          simp only [← List.append_assoc]
          refine List.Perm.append_right _ (List.Perm.append_right _ List.perm_append_comm)
        exact (List.pairwise_append.1 ((this.pairwise_iff (fun h => h.symm)).1 ha)).2.1
      obtain ⟨b1, b2, t2, hq2, e2, hp2, hle, hor2⟩ := ih (split (onRec f) a1 s).2.2 hp1 hsub
      subst hq2
      refine ⟨a1 ++ b1, b2, t2, by simp [hq], ?_, ?_, ?_, ?_⟩
      · simp only [DrainFilter.take, e1, bind, Except.bind, e2, split_append, hone]; simp [pure, Except.pure]
      · rw [split_append]; simpa using hp2
      · rw [split_append, hone]; simp; exact hle
      · rw [split_append, hone]
        rcases hor2 with h | h
        · left; simp [h]
        · exact .inr h

/-- `drain_filter` visits the pairs in the order of the left table -/
theorem drainFilterTake_ordered {σ : Type} {qs : List (Rec L R)} (hr : Rep m qs) (he : m.left.entries = qs.map (toL m.hb))
    (f : σ → L → R → Bool × σ) (s : σ) (n : Nat) :
    ∃ m' : CycleMap L R,
      m.drainFilterTake f s n = .ok ((split (onPair f) (qs.map Rec.pair) s).1.take n,
        (split (onPair f) (qs.map Rec.pair) s).2.2, m') ∧
      Repr m' (split (onPair f) (qs.map Rec.pair) s).2.1 ∧ m'.hb = m.hb ∧ m'.counter = m.counter := by
  obtain ⟨a1, a2, t1, hq, e1, hp1, hle, hor⟩ :=
    drainFilter_take (hb := m.hb) f n (ks := []) (qs := qs) (t := m.right) s (by simpa using hr.right) (by simpa using hr.apart.imp fun h => h.1)
  have hperm := split_perm (onRec f) a1 s
  have hsub : ((split (onRec f) a1 s).2.1 ++ a2).Pairwise Apart := by
    have : qs.Perm ((split (onRec f) a1 s).1 ++ ((split (onRec f) a1 s).2.1 ++ a2)) := by
      rw [hq, ← List.append_assoc]; exact hperm.append_right a2
    exact (List.pairwise_append.1 ((this.pairwise_iff (fun h => h.symm)).1 hr.apart)).2.1
  obtain ⟨b1, b2, t2, hq2, e2, hp2, hle2, hor2⟩ :=
    drainFilter_take (hb := m.hb) f ((a2.map (toL m.hb)).length + 1) (split (onRec f) a1 s).2.2 hp1 (by simpa using hsub.imp fun h => h.1)
  have hb2 : b2 = [] := by
    rcases hor2 with h | h
    · exfalso
      have h3 := (split_perm (onRec f) b1 (split (onRec f) a1 s).2.2).length_eq
      have h4 : a2.length = b1.length + b2.length := by rw [hq2]; simp
      simp at h h3; omega
    · exact h
  subst hb2
  simp only [List.append_nil] at hq2
  subst hq2
  have hsp := split_append (onRec f) a1 a2 s
  rw [← hq] at hsp
  have htake : ((split (onRec f) qs s).1.take n) = (split (onRec f) a1 s).1 := by
    rw [hsp]
    rcases hor with h | h
    · rw [← h]; simp
    · subst h; simp [split, List.take_of_length_le hle]
  refine ⟨{ m with
    left := RawImpl.touch (.erase (stays m.left ((split (onRec f) qs s).2.1.map (toL m.hb)))) { m.left with entries := (split (onRec f) qs s).2.1.map (toL m.hb) },
    right := t2 }, ?_, ?_, ?_, ?_⟩
  rotate_left
  · rw [split_map]
    refine Rep.repr (m := { m with left := _, right := t2 }) ⟨?_, ?_, ?_, ?_⟩
    · exact LawfulRaw.touch_perm _ _
    · refine hp2.trans ?_
      rw [hsp]; simp
    · have := (split_perm (onRec f) qs s)
      exact (List.pairwise_append.1 ((this.pairwise_iff (fun h => h.symm)).1 hr.apart)).2.1
    · intro p hpm
      have := (split_perm (onRec f) qs s).mem_iff (a := p)
      exact hr.bound p (this.2 (List.mem_append_right _ hpm))
  · rfl
  · rfl
  · simp only [List.map_nil] at e1
    simp only [drainFilterTake, he, e1, bind, Except.bind, e2, split_map, pure, Except.pure]
    congr 1
    rw [← List.map_take, htake, hsp]
    simp

theorem drainFilterTake_refines {σ : Type} (h : Repr m c) (f : σ → L → R → Bool × σ) (s : σ) (n : Nat) :
    ∃ (d : List (L × R)) (m' : CycleMap L R), d.Perm c ∧
      m.drainFilterTake f s n = .ok ((split (onPair f) d s).1.take n, (split (onPair f) d s).2.2, m') ∧
      Repr m' (split (onPair f) d s).2.1 ∧ m'.hb = m.hb ∧ m'.counter = m.counter := by
  obtain ⟨qs, hp, hr, he⟩ := h.ordered
  obtain ⟨m', e⟩ := drainFilterTake_ordered hr he f s n
  exact ⟨_, m', hp, e⟩

/-! ### Comparison, extend, clone -/

theorem allPaired_refines {ps} (h : Rep m ps) {other : CycleMap L R} {d : List (L × R)} (h' : Repr other d)
    {qs} (hq : ∀ q ∈ qs, q ∈ ps) :
    m.allPaired other (elemsL m.hb qs) = .ok ((qs.map Rec.pair).all fun q => hasPair d q.1 q.2) := by
  induction qs with
  | nil => rfl
  | cons q qs ih =>
    have ih := ih fun x hx => hq x (List.mem_cons_of_mem _ hx)
    simp only [elemsL, List.map_cons, allPaired] at ih ⊢
    rw [h.next_cons (hq q (by simp))]
    simp only [bind, Except.bind, Rec.pair, arePaired_refines h', ih]
    rw [List.all_cons]
    cases hasPair d q.l q.r <;> simp only [pure, Except.pure, Bool.true_and, Bool.false_and, if_true] <;> rfl

theorem eq_refines {other : CycleMap L R} {d : List (L × R)} (h : Repr m c) (h' : Repr other d) :
    m.eq other = .ok (c.length == d.length && c.all fun q => hasPair d q.1 q.2) := by
  obtain ⟨qs, hp, hr, he⟩ := h.ordered
  rw [eq, len_refines h, len_refines h', iter_todo he, allPaired_refines hr h' (fun q hq => hq)]
  have : ((qs.map Rec.pair).all fun q => hasPair d q.1 q.2) = c.all fun q => hasPair d q.1 q.2 := by
    rw [Bool.eq_iff_iff, List.all_eq_true, List.all_eq_true]
    simp only [hp.mem_iff]
  rw [this]
  cases hl : c.length == d.length <;> simp [bne, hl]

theorem extend_refines (h : Repr m c) (xs : List (L × R)) :
    ∃ m', m.extend xs = .ok m' ∧ Repr m' (insertAll c xs) ∧ m'.hb = m.hb ∧ m'.counter = m.counter + xs.length := by
  induction xs generalizing m c with
  | nil => exact ⟨m, rfl, h, rfl, rfl⟩
  | cons x xs ih =>
    obtain ⟨m1, e1, h1, hb1, c1⟩ := insert_refines h x.1 x.2
    obtain ⟨m2, e2, h2, hb2, c2⟩ := ih h1
    refine ⟨m2, ?_, h2, hb2.trans hb1, ?_⟩
    · simp only [extend, e1, bind, Except.bind]; exact e2
    · rw [c2, c1]; simp; omega

theorem Rep.clone {ps} (h1 : Rep m ps) {cl : L → L} {cr : R → R} (hl : ∀ x, (cl x == x) = true)
    (hr : ∀ x, (cr x == x) = true) : Rep (m.clone cl cr) (ps.map fun p => ⟨cl p.l, cr p.r, p.id⟩) := by
  have hbl : ∀ x, m.hb.hl (cl x) = m.hb.hl x := fun x => m.hb.hl_congr _ _ (hl x)
  have hbr : ∀ x, m.hb.hr (cr x) = m.hb.hr x := fun x => m.hb.hr_congr _ _ (hr x)
  refine ⟨?_, ?_, ?_, ?_⟩
  · refine (h1.left.map _).trans ?_
    simp [CycleMap.clone, toL, Function.comp_def, MappingPair.clone, hbl, hbr]
  · refine (h1.right.map _).trans ?_
    simp [CycleMap.clone, toR, Function.comp_def, MappingPair.clone, hbl, hbr]
  · rw [List.pairwise_map]
    refine h1.apart.imp fun {a b} hab => ⟨hab.1, ?_, ?_⟩
    · dsimp only; rw [BEq.congr_left (hl _), BEq.congr_right (hl _)]; exact hab.2.1
    · dsimp only; rw [BEq.congr_left (hr _), BEq.congr_right (hr _)]; exact hab.2.2
  · intro p hp
    obtain ⟨q, hq, rfl⟩ := List.mem_map.1 hp
    exact h1.bound q hq

theorem clone_refines (h : Repr m c) {cl : L → L} {cr : R → R} (hl : ∀ x, (cl x == x) = true)
    (hr : ∀ x, (cr x == x) = true) : Repr (m.clone cl cr) (c.map fun p => (cl p.1, cr p.2)) := by
  obtain ⟨ps, h1, h2⟩ := h
  refine ⟨_, h1.clone hl hr, ?_⟩
  have := h2.map fun p : L × R => (cl p.1, cr p.2)
  refine .trans ?_ this
  simp [Rec.pair, Function.comp_def]

end Verif.CycleMap
