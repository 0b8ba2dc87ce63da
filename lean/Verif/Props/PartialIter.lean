import Verif.Props.PartialSwap
import Verif.CycleMap.SpecLemmas
/-! Properties C50–C55 of `PartialCycleMap`: iteration, draining, filtering. -/
set_option linter.unusedSectionVars false
set_option linter.unusedSimpArgs false
namespace Verif.PartialMap
open PartialSpec OptionalPair Demo
open CycleSpec (split split_pure)

variable [RawImpl] [LawfulRaw] {L R : Type} [BEq L] [BEq R] [EquivBEq L] [EquivBEq R]
variable {m : PartialMap L R} {c : List (OptionalPair L R)}

/-! ### C50 -/

/-- C50 in full: `iter` visits every entry.  False, see `C50_false`. -/
def C50_full : Prop :=
  ∀ [RawImpl] [LawfulRaw] (L R : Type) [BEq L] [BEq R] [EquivBEq L] [EquivBEq R] (m : PartialMap L R)
    (c : List (OptionalPair L R)), Reachable m → Shows m c → m.iterList.Perm c

/-- What happens instead: exactly the pairs and the lone left items are visited, each once; no lone right
item is. -/
theorem C50_actual (h : Reachable m) (hc : Shows m c) :
    m.iterList.Perm (c.filter fun e => (leftOf e).isSome) ∧ ∀ r, someRight r ∉ m.iterList := by
  refine ⟨iterList_refines (h.repr_of_shows hc), fun r hr => ?_⟩
  have := (iterList_refines (h.repr_of_shows hc)).mem_iff.1 hr
  simp [leftOf] at this

/-- C50 holds of maps without lone right items.  Missing: lone right items. -/
theorem C50_partial (h : Reachable m) (hc : Shows m c) (hn : ∀ r, someRight r ∉ c) : m.iterList.Perm c := by
  have := (C50_actual h hc).1
  rwa [List.filter_eq_self.2] at this
  intro e he
  cases e with
  | neither => exact absurd he hc.oneToOne.2
  | someRight r => exact absurd he (hn r)
  | someLeft _ => rfl
  | someBoth _ _ => rfl

example : demo.iterList.Perm [someLeft 3, someBoth 2 20, someBoth 1 10] := (C50_actual demo_reachable demo_shows).1
/-- `C50_partial` applied to the map after `demo.remove_right(30)` -/
example : ∃ m', demo.removeRight 30 = .ok (some 30, m') ∧ m'.iterList.Perm [someLeft 3, someBoth 2 20, someBoth 1 10] := by
  obtain ⟨m', e, s⟩ := ((C44_remove_one demo_reachable demo_shows).2 30).2.1 30 (by simp) rfl
  have hm : Reachable m' := .step (op := .removeRight 30) (o := .right (some 30)) demo_reachable (by simp) (by simp) (by simp)
    (by simp only [exec, e, bind, Except.bind, pure, Except.pure])
  exact ⟨m', e, C50_partial hm s (by simp [hasR])⟩

omit [RawImpl] [LawfulRaw] in
/-- the witness: the lone right item 30 is not visited -/
theorem C50_false : ¬ C50_full := by
  intro h
  letI := messyRaw; haveI := messyRaw_lawful
  exact (C50_actual demo_reachable demo_shows).2 30 ((h Nat Nat demo _ demo_reachable demo_shows).mem_iff.2 (by simp))

/-! ### C51 -/

theorem take_of_split {α : Type} {a b : List α} {n : Nat} (h1 : a.length ≤ n) (h2 : a.length = n ∨ b = []) :
    (a ++ b).take n = a ∧ (a ++ b).drop n = b := by
  rcases h2 with h2 | rfl
  · subst h2; simp
  · simp [List.take_of_length_le h1, h1]

theorem pairsOf_append (a b : List (Rec L R)) : pairsOf (a ++ b) = pairsOf a ++ pairsOf b := by simp [pairsOf]

/-- taking pairs one by one -/
theorem Rep.pairedTake_eq {ps qs : List (Rec L R)} (h : Rep m ps) (k : Nat) (hq : ∀ q ∈ qs, q ∈ ps)
    (hs : ∀ q ∈ qs, (leftOf q.e).isSome = true) :
    ∃ qs2, PairedIter.take m k ⟨elemsL m.hb qs⟩ = .ok ((pairsOf qs).take k, ⟨elemsL m.hb qs2⟩) ∧
      pairsOf qs2 = (pairsOf qs).drop k ∧ ∀ q ∈ qs2, q ∈ qs := by
  obtain ⟨qs1, qs2, rfl, e, hl, hx⟩ := h.pairedTake k hq hs
  have := take_of_split hl (hx.imp id fun h => by rw [h]; rfl : _ ∨ pairsOf qs2 = [])
  rw [← pairsOf_append] at this
  rw [this.1, this.2]
  exact ⟨qs2, e, rfl, fun q hq => List.mem_append_right _ hq⟩

/-- C51: `iter_paired` yields exactly the pairs, `iter_unpaired` exactly the lone items of both sides, in some
order, step by step; `iter_left` and `iter_right` exactly the items of their side; all items of one side are
different. -/
theorem C51_iterators (h : Reachable m) (hc : Shows m c) :
    (∃ ps : List (L × R), ps.Perm (c.filterMap pairOf) ∧ m.iterPairedList = .ok ps ∧
      ∀ k, ∃ it, PairedIter.take m k m.iterPaired = .ok (ps.take k, it) ∧
        ∀ j, ∃ it', PairedIter.take m j it = .ok ((ps.drop k).take j, it')) ∧
    (∃ es : List (OptionalPair L R), es.Perm (c.filter fun e => !isPair e) ∧ m.iterUnpairedList = es ∧
      ∀ k, (UnpairedIter.take k m.iterUnpaired).1 = es.take k ∧
        ∀ j, (UnpairedIter.take j (UnpairedIter.take k m.iterUnpaired).2).1 = (es.drop k).take j) ∧
    m.iterLeft.Perm (c.filterMap leftOf) ∧ m.iterRight.Perm (c.filterMap rightOf) ∧
    m.iterLeft.Pairwise (fun a b => (a == b) = false) ∧ m.iterRight.Pairwise (fun a b => (a == b) = false) := by
  have h := h.repr_of_shows hc
  refine ⟨?_, ?_, hc.iterLeft, hc.iterRight, ?_, ?_⟩
  · obtain ⟨qs, us, hp, hr, he, hs, hn⟩ := h.ordered
    have hi : m.iterPaired = ⟨elemsL m.hb qs⟩ := by simp [iterPaired, RawTable.toList, he, elemsL]
    refine ⟨pairsOf qs, pairsOf_perm hp hn, iterPairedList_eq hr he hs, fun k => ?_⟩
    rw [hi]
    obtain ⟨qs2, e, hd, hm⟩ := hr.pairedTake_eq k (qs := qs) (fun q hq => List.mem_append_left _ hq) hs
    refine ⟨_, e, fun j => ?_⟩
    obtain ⟨qs3, e', _⟩ := hr.pairedTake_eq j (qs := qs2) (fun q hq => List.mem_append_left _ (hm q hq)) (fun q hq => hs q (hm q hq))
    rw [← hd]; exact ⟨_, e'⟩
  · refine ⟨_, iterUnpairedList_refines h, rfl, fun k => ?_⟩
    rw [iterUnpairedList_eq]
    refine ⟨(UnpairedIter.take_eq k _).1, fun j => ?_⟩
    rw [(UnpairedIter.take_eq j _).1, (UnpairedIter.take_eq k _).2]
  · refine hc.iterLeft.symm.pairwise ?_ (fun {a b} h => by rw [BEq.comm]; exact h)
    rw [List.pairwise_filterMap]
    refine hc.oneToOne.1.imp fun {x y} hd a ha b hb => ?_
    have := hd.1 a ha; rw [hasL_eq hb] at this; exact this
  · refine hc.iterRight.symm.pairwise ?_ (fun {a b} h => by rw [BEq.comm]; exact h)
    rw [List.pairwise_filterMap]
    refine hc.oneToOne.1.imp fun {x y} hd a ha b hb => ?_
    have := hd.2 a ha; rw [hasR_eq hb] at this; exact this

example : (∃ ps : List (Nat × Nat), ps.Perm [(2, 20), (1, 10)] ∧ demo.iterPairedList = .ok ps) ∧
    demo.iterUnpairedList.Perm [someRight 30, someLeft 3] ∧ demo.iterLeft.Perm [3, 2, 1] := by
  obtain ⟨⟨ps, h1, h2, _⟩, ⟨es, h3, h4, _⟩, h5, _⟩ := C51_iterators demo_reachable demo_shows
  exact ⟨⟨ps, h1, h2⟩, by rw [h4]; exact h3, h5⟩

/-! ### C52 -/

/-- C52 in full: at every point, `len` is the number of items still to come, and so is the number in the
`size_hint` (which is of the form `(n, Some(n))`).  False, see `C52_false`. -/
def C52_full : Prop :=
  ∀ [RawImpl] [LawfulRaw] (L R : Type) [BEq L] [BEq R] [EquivBEq L] [EquivBEq R] (m : PartialMap L R)
    (c : List (OptionalPair L R)) (k : Nat), Reachable m → Shows m c →
    (∀ it, Iter.take m k m.iter = (m.iterList.take k, it) →
      it.len m = (m.iterList.drop k).length ∧ it.sizeHint = (m.iterList.drop k).length) ∧
    (∀ ps it, m.iterPairedList = .ok ps → PairedIter.take m k m.iterPaired = .ok (ps.take k, it) →
      it.len m = .ok (ps.drop k).length ∧ it.sizeHint = (ps.drop k).length) ∧
    (∀ it, UnpairedIter.take k m.iterUnpaired = (m.iterUnpairedList.take k, it) →
      it.len = (m.iterUnpairedList.drop k).length ∧ it.sizeHint = (m.iterUnpairedList.drop k).length) ∧
    (∀ n ps m' qs it, m.lenLeft + m.lenRight ≤ n → m.drainTake n = .ok (ps, m') → DrainIter.take k m.drain = .ok (qs, it) →
      it.len = (ps.drop k).length)

theorem Rep.iterTake {ps} (h : Rep m ps) (k : Nat) {qs} (hq : ∀ q ∈ qs, q ∈ ps)
    (hs : ∀ q ∈ qs, (leftOf q.e).isSome = true) :
    Iter.take m k ⟨elemsL m.hb qs⟩ = ((qs.map Rec.e).take k, ⟨elemsL m.hb (qs.drop k)⟩) := by
  induction k generalizing qs with
  | zero => simp [Iter.take]
  | succ k ih =>
    cases qs with
    | nil => rfl
    | cons q qs =>
      obtain ⟨x, hx⟩ := exists_toL (hb := m.hb) (hs q (by simp))
      rw [Iter.take, elemsL_cons hx, h.next_cons (hq q (by simp)) hx]
      have e := ih (qs := qs) (fun q h => hq q (by simp [h])) (fun q h => hs q (by simp [h]))
      simp only [e]
      simp

/-- C52, what holds, after any number `k` of steps.  `iter`: `len` and `size_hint` are right.  `iter_paired`: `len`
is right, `size_hint` is an upper bound.  `iter_unpaired`: `len` is right.  `drain`: `len` counts the entries with a
left item still to come (an item `x` without a left item may come in addition).  `iter_left` / `iter_right` count down
the list that C51 describes.  Missing: the other `size_hint`s. -/
theorem C52_partial (h : Reachable m) (hc : Shows m c) :
    (∃ d : List (OptionalPair L R), d.Perm (c.filter fun e => (leftOf e).isSome) ∧ m.iterList = d ∧
      ∀ k, ∃ it, Iter.take m k m.iter = (d.take k, it) ∧ it.len m = (d.drop k).length ∧ it.sizeHint = (d.drop k).length) ∧
    (∃ ps : List (L × R), ps.Perm (c.filterMap pairOf) ∧ m.iterPairedList = .ok ps ∧
      ∀ k, ∃ it, PairedIter.take m k m.iterPaired = .ok (ps.take k, it) ∧ it.len m = .ok (ps.drop k).length ∧
        (ps.drop k).length ≤ it.sizeHint) ∧
    (∃ es : List (OptionalPair L R), es.Perm (c.filter fun e => !isPair e) ∧ m.iterUnpairedList = es ∧
      ∀ k, ∃ it, UnpairedIter.take k m.iterUnpaired = (es.take k, it) ∧ it.len = (es.drop k).length) ∧
    (∃ d : List (OptionalPair L R), d.Perm (c.filter fun e => (leftOf e).isSome) ∧
      ∀ k, ∃ (x : Option (OptionalPair L R)) (it : DrainIter L R), (∀ e, x = some e → e ∈ c ∧ leftOf e = none) ∧
        DrainIter.take k m.drain = .ok ((d ++ x.toList).take k, it) ∧ it.len = (d.drop k).length) := by
  have h := h.repr_of_shows hc
  obtain ⟨qs, us, hp, hr, he, hs, hn⟩ := h.ordered
  have hmem : ∀ q ∈ qs, q ∈ qs ++ us := fun q hq => List.mem_append_left _ hq
  refine ⟨?_, ?_, ?_, ?_⟩
  · refine ⟨qs.map Rec.e, ?_, ?_, fun k => ?_⟩
    · have := hp.filter fun e => (leftOf e).isSome
      rwa [filter_left hs hn] at this
    · rw [iterList, iter_todo he, hr.collect hmem hs]
    · have hi : m.iter = ⟨elemsL m.hb qs⟩ := by rw [← iter_todo he]
      have hs' : ∀ q ∈ qs.drop k, (leftOf q.e).isSome = true := fun q hq => hs q (List.mem_of_mem_drop hq)
      rw [hi, hr.iterTake k hmem hs]
      refine ⟨_, rfl, ?_, ?_⟩
      · rw [Iter.len, hr.collect (fun q hq => hmem q (List.mem_of_mem_drop hq)) hs', List.map_drop]
      · rw [Iter.sizeHint, elemsL_length hs', ← List.map_drop, List.length_map]
  · have hi : m.iterPaired = ⟨elemsL m.hb qs⟩ := by simp [iterPaired, RawTable.toList, he, elemsL]
    refine ⟨pairsOf qs, pairsOf_perm hp hn, iterPairedList_eq hr he hs, fun k => ?_⟩
    rw [hi]
    obtain ⟨qs2, e, hd, hm⟩ := hr.pairedTake_eq k (qs := qs) hmem hs
    have hs2 : ∀ q ∈ qs2, (leftOf q.e).isSome = true := fun q hq => hs q (hm q hq)
    refine ⟨_, e, ?_, ?_⟩
    · have := hr.pairedAll (n := (elemsL m.hb qs2).length + 1) (fun q hq => hmem q (hm q hq)) hs2 (by rw [elemsL_length hs2]; omega)
      rw [PairedIter.len, this, ← hd]; rfl
    · rw [← hd, PairedIter.sizeHint, elemsL_length hs2]; exact pairsOf_length _
  · refine ⟨_, iterUnpairedList_refines h, rfl, fun k => ?_⟩
    rw [iterUnpairedList_eq]
    refine ⟨_, Prod.ext (UnpairedIter.take_eq k _).1 rfl, ?_⟩
    rw [UnpairedIter.len, (UnpairedIter.take_eq _ _).1, (UnpairedIter.take_eq k _).2, List.take_of_length_le]
    have := UnpairedIter.future_length (UnpairedIter.take k m.iterUnpaired).2
    rw [(UnpairedIter.take_eq k _).2] at this
    exact Nat.le_succ_of_le this
  · have hd : m.drain = ⟨elemsL m.hb qs, m.right⟩ := by
      simp [drain, RawTable.toList, he, elemsL]
    have hne : ∀ u ∈ us, u.e ≠ neither := fun u hu => hr.nonempty u (List.mem_append_right _ hu)
    have hx1 : ∀ e, e ∈ us.map Rec.e → e ∈ c ∧ leftOf e = none := by
      intro e he
      obtain ⟨u, hu, rfl⟩ := List.mem_map.1 he
      exact ⟨hp.mem_iff.1 (List.mem_map_of_mem (List.mem_append_right _ hu)), hn u hu⟩
    refine ⟨qs.map Rec.e, ?_, fun k => ?_⟩
    · have := hp.filter fun e => (leftOf e).isSome
      rwa [filter_left hs hn] at this
    · rw [hd]
      rcases Nat.lt_or_ge qs.length k with hk | hk
      · obtain ⟨j, rfl⟩ : ∃ j, k = qs.length + (j + 1) := ⟨k - qs.length - 1, by omega⟩
        obtain ⟨t2, x, h2, e2, t3, h3, h4⟩ := drain_take_all (hb := m.hb) j hr.right (apart_ids hr.apart) hs
        obtain ⟨k1, k2⟩ := lone_head h3 hn hne
        rw [← h4] at k1 k2
        refine ⟨x, ⟨[], t2⟩, fun e he => hx1 e (k2 e he), ?_, by simp [DrainIter.len]⟩
        rw [List.take_of_length_le (by cases x <;> simp)]; exact e2
      · obtain ⟨t1, e1, h1⟩ := drain_take (hb := m.hb) k hr.right (apart_ids hr.apart) hs hk
        refine ⟨none, ⟨elemsL m.hb (qs.drop k), t1⟩, by simp, ?_, by
          rw [DrainIter.len, elemsL_length fun q hq => hs q (List.mem_of_mem_drop hq)]; simp⟩
        rw [e1]; simp

/-- after one step of `demo.iter_paired()`, one pair is still to come, and `len` says so -/
example : ∃ (ps : List (Nat × Nat)) (it : PairedIter Nat Nat), ps.Perm [(2, 20), (1, 10)] ∧
    PairedIter.take demo 1 demo.iterPaired = .ok (ps.take 1, it) ∧ it.len demo = .ok 1 := by
  obtain ⟨_, ⟨ps, h1, _, h3⟩, _⟩ := C52_partial demo_reachable demo_shows
  obtain ⟨it, h4, h5, _⟩ := h3 1
  have := h1.length_eq
  exact ⟨ps, it, h1, h4, by rw [h5, List.length_drop, this]; rfl⟩

/-- What `size_hint` says at the start: the number of left items. -/
theorem C52_actual (hc : Shows m c) :
    m.iterPaired.sizeHint = (c.filterMap leftOf).length ∧ m.iterUnpaired.sizeHint = (c.filterMap leftOf).length ∧
    m.drain.len = (c.filterMap leftOf).length := by
  have := hc.iterLeft.length_eq
  simp only [iterLeft, List.length_map] at this
  exact ⟨this, this, this⟩

example : demo.iterPaired.sizeHint = 3 := (C52_actual demo_shows).1

omit [RawImpl] [LawfulRaw] in
/-- the witness: `iter_paired` on a map with three left items, two of them paired -/
theorem C52_false : ¬ C52_full := by
  intro h
  letI := messyRaw; haveI := messyRaw_lawful
  obtain ⟨⟨ps, h1, h2, _⟩, _⟩ := C51_iterators demo_reachable demo_shows
  have := ((h Nat Nat demo _ 0 demo_reachable demo_shows).2.1 ps _ h2 rfl).2
  rw [(C52_actual demo_shows).1] at this
  have h3 := h1.length_eq
  rw [List.drop_zero] at this
  have := this.trans h3
  revert this; decide

/-! ### C53 -/

/-- C53 in full: `drain` yields every entry (if driven to the end), and empties the map.  False, see `C53_false`. -/
def C53_full : Prop :=
  ∀ [RawImpl] [LawfulRaw] (L R : Type) [BEq L] [BEq R] [EquivBEq L] [EquivBEq R] (m : PartialMap L R)
    (c : List (OptionalPair L R)) (n : Nat), Reachable m → Shows m c → ∃ (d : List (OptionalPair L R)) (m' : PartialMap L R), d.Perm c ∧
      m.drainTake n = .ok (d.take n, m') ∧ Shows m' [] ∧
      ∀ ops, SafeRun m'.hb [] ops → ∃ os m'' c'', m'.run ops = .ok (os, m'') ∧ Steps [] ops os c'' ∧ Shows m'' c''

/-- What happens: the entries with a left item are yielded first, then *one* lone right item if there is any;
the other lone right items are dropped without being yielded.  The map is empty afterwards however many items
were taken, and every later history goes as on a new map. -/
theorem C53_actual (h : Reachable m) (hc : Shows m c) (n : Nat) :
    ∃ (d : List (OptionalPair L R)) (x : Option (OptionalPair L R)) (m' : PartialMap L R),
      d.Perm (c.filter fun e => (leftOf e).isSome) ∧ (x = none ↔ ∀ r, someRight r ∉ c) ∧
      (∀ e, x = some e → e ∈ c ∧ leftOf e = none) ∧
      m.drainTake n = .ok ((d ++ x.toList).take n, m') ∧ Shows m' [] ∧
      ∀ ops, SafeRun m'.hb [] ops → ∃ os m'' c'', m'.run ops = .ok (os, m'') ∧ Steps [] ops os c'' ∧ Shows m'' c'' := by
  obtain ⟨d, x, m', h1, h2, h3, h4, h5, h6, _⟩ := drainTake_refines (h.repr_of_shows hc) n
  refine ⟨d, x, m', h1, h2.trans ⟨fun H r hr => ?_, fun H e he => ?_⟩, h3, h4, h5.shows, fun ops hs => ?_⟩
  · simpa [leftOf] using H _ hr
  · cases e with
    | neither => exact absurd he hc.oneToOne.2
    | someRight r => exact absurd he (H r)
    | someLeft _ => rfl
    | someBoth _ _ => rfl
  · obtain ⟨os, m'', c'', e, s, h, _⟩ := run_simulates rfl h5 hs
    exact ⟨os, m'', c'', e, s, h.shows⟩

/-- C53 holds of maps with at most one lone right item.  Missing: the others are not yielded. -/
theorem C53_partial (h : Reachable m) (hc : Shows m c) (n : Nat)
    (h1 : (c.filter fun e => (leftOf e).isNone).length ≤ 1) :
    ∃ (d : List (OptionalPair L R)) (m' : PartialMap L R), d.Perm c ∧ m.drainTake n = .ok (d.take n, m') ∧ Shows m' [] := by
  obtain ⟨d, x, m', hd, hx, hx', e, hs, _⟩ := C53_actual h hc n
  refine ⟨d ++ x.toList, m', ?_, e, hs⟩
  have hsp := List.filter_append_perm (fun e => (leftOf e).isSome) c
  have hnot : (fun e : OptionalPair L R => !(leftOf e).isSome) = fun e => (leftOf e).isNone := by
    funext e; cases leftOf e <;> rfl
  rw [hnot] at hsp
  refine (hd.append ?_).trans hsp
  cases x with
  | none =>
    rw [Option.toList_none, List.filter_eq_nil_iff.2]
    intro e he hl
    cases e with
    | neither => exact hc.oneToOne.2 he
    | someRight r => exact hx.1 rfl r he
    | someLeft _ => cases hl
    | someBoth _ _ => cases hl
  | some y =>
    obtain ⟨h2, h3⟩ := hx' y rfl
    have hm : y ∈ c.filter fun e => (leftOf e).isNone := List.mem_filter.2 ⟨h2, by simp [h3]⟩
    cases hf : c.filter fun e => (leftOf e).isNone with
    | nil => rw [hf] at hm; simp at hm
    | cons a as =>
      rw [hf] at hm h1
      cases as with
      | nil => rw [List.mem_singleton.1 hm]; exact .refl _
      | cons _ _ => simp at h1

example : ∃ (d : List (OptionalPair Nat Nat)) (m' : PartialMap Nat Nat), d.Perm [someRight 30, someLeft 3, someBoth 2 20, someBoth 1 10] ∧ demo.drainTake 2 = .ok (d.take 2, m') ∧ Shows m' [] :=
  C53_partial demo_reachable demo_shows 2 (by decide)

omit [RawImpl] [LawfulRaw] in
/-- the witness: two lone right items -/
theorem C53_false : ¬ C53_full := by
  intro h
  letI := messyRaw; haveI := messyRaw_lawful
  obtain ⟨m', e, s⟩ : ∃ m', demo.insertRight 40 = .ok (neither, m') ∧
      Shows m' [someRight 40, someRight 30, someLeft 3, someBoth 2 20, someBoth 1 10] := by
    obtain ⟨m', e, s⟩ := (C37_insert_lone demo_reachable demo_shows).2 40
    exact ⟨m', e, s⟩
  have hm : Reachable m' := .step (op := .insertRight 40) (o := .entry neither) demo_reachable (by simp) (by simp) (by simp)
    (by simp only [exec, e, bind, Except.bind, pure, Except.pure])
  obtain ⟨d, m2, h1, h2, _⟩ := h Nat Nat m' _ 10 hm s
  obtain ⟨d', x, m3, h3, _, _, h4, _⟩ := C53_actual hm s 10
  rw [h2] at h4
  have := congrArg List.length (Prod.mk.inj (Except.ok.inj h4)).1
  have hl1 := h1.length_eq
  have hl2 := h3.length_eq
  have hx : x.toList.length ≤ 1 := by cases x <;> simp
  rw [List.length_take, List.length_take, List.length_append, hl1, hl2] at this
  simp [leftOf] at this
  omega

/-! ### C54 -/

/-- a closure that also writes down what it is called on -/
def logging {σ α : Type} (f : σ → α → Bool × σ) : List α × σ → α → Bool × (List α × σ) :=
  fun s a => ((f s.2 a).1, (s.1 ++ [a], (f s.2 a).2))

theorem split_logging {σ α β : Type} (f : σ → β → Bool × σ) (g : α → β) (d : List α) (log : List β) (s : σ) :
    split (fun s a => logging f s (g a)) d (log, s) =
      ((split (fun s a => f s (g a)) d s).1, (split (fun s a => f s (g a)) d s).2.1,
        (log ++ d.map g, (split (fun s a => f s (g a)) d s).2.2)) := by
  induction d generalizing log s with
  | nil => simp [split]
  | cons p d ih =>
    simp only [split, logging]
    have := ih (log ++ [g p]) (f s (g p)).2
    simp only [logging] at this
    cases hf : f s (g p) with
    | mk b s' => rw [hf] at this; cases b <;> simp [this]

/-- C54 in full: `drain_filter(f)` calls the closure once on every entry and removes exactly the entries
accepted.  False, see `C54_false`. -/
def C54_full : Prop :=
  ∀ [RawImpl] [LawfulRaw] (L R : Type) [BEq L] [BEq R] [EquivBEq L] [EquivBEq R] (m : PartialMap L R)
    (c : List (OptionalPair L R)) (σ : Type) (f : σ → OptionalPair L R → Bool × σ) (s : σ) (n : Nat),
    Reachable m → Shows m c → ∃ (d : List (OptionalPair L R)) (m' : PartialMap L R), d.Perm c ∧
      m.drainFilterTake (logging f) ([], s) n = .ok ((split f d s).1.take n, (d, (split f d s).2.2), m') ∧
      Shows m' (split f d s).2.1

/-- What happens, for every closure with a state.  First the closure is run over the entries with a left
item, in some order `d1`; those it accepts are removed.  Then it is run over *every* right item still there,
in the form `SomeRight` even if the item is paired (`d2` are the entries with a right item still there, in
some order), and the right items it accepts are removed.  `log` is the list of the calls.  If the right item
of a pair is removed in this way, the left item keeps saying it is paired, has no partner, and removing it
with its partner panics. -/
theorem C54_actual {σ : Type} (h : Reachable m) (hc : Shows m c) (f : σ → OptionalPair L R → Bool × σ) (s : σ) (n : Nat) :
    ∃ (d1 d2 a1 k1 a2 k2 : List (OptionalPair L R)) (s1 s2 : σ) (m' : PartialMap L R),
      d1.Perm (c.filter fun e => (leftOf e).isSome) ∧ split f d1 s = (a1, k1, s1) ∧
      d2.Perm ((k1 ++ c.filter fun e => (leftOf e).isNone).filter fun e => (rightOf e).isSome) ∧
      split (fun s e => f s (asRight e)) d2 s1 = (a2, k2, s2) ∧
      m.drainFilterTake (logging f) ([], s) n = .ok ((a1 ++ a2.map asRight).take n, (d1 ++ d2.map asRight, s2), m') ∧
      m'.iterLeft.Perm (k1.filterMap leftOf) ∧ m'.iterRight.Perm (k2.filterMap rightOf) ∧
      ∀ l r, someBoth l r ∈ a2 →
        m'.isLeftPaired l = true ∧ m'.getRight l = none ∧ m'.removeViaLeft l = .error .unwrapNone := by
  obtain ⟨d1, us, d2, m', h1, h2, h3, h4, h5, h6, _, _, h7, h8, h9, _⟩ :=
    drainFilterTake_refines (h.repr_of_shows hc) (logging f) ([], s) n
  have k1 := split_logging f id d1 [] s
  simp only [id, List.map_id', List.map_id_fun, List.nil_append] at k1
  have e1 : split (logging f) d1 ([], s) = split (fun s a => logging f s a) d1 ([], s) := rfl
  rw [e1, k1] at h4 h6 h7 h8 h9
  have k2 := split_logging f asRight d2 d1 (split f d1 s).2.2
  dsimp only at h4 h6 h7 h8 h9
  rw [k2] at h6 h8 h9
  have hd : d1.Perm (c.filter fun e => (leftOf e).isSome) := by
    have := h1.filter fun e => (leftOf e).isSome
    rwa [List.filter_append, List.filter_eq_self.2 h2, List.filter_eq_nil_iff.2 (fun e he => by simp [h3 e he]),
      List.append_nil] at this
  have hu : us.Perm (c.filter fun e => (leftOf e).isNone) := by
    have := h1.filter fun e => (leftOf e).isNone
    rwa [List.filter_append, List.filter_eq_nil_iff.2 (fun e he => by
        have := h2 e he; revert this; cases leftOf e <;> simp),
      List.filter_eq_self.2 (fun e he => by simp [h3 e he]), List.nil_append] at this
  refine ⟨d1, d2, _, _, _, _, _, _, m', hd, rfl, ?_, rfl, h6, h7, h8, h9⟩
  have := h4.filter fun e => (rightOf e).isSome
  rw [List.filter_append, List.filter_eq_self.2 h5, List.filter_filter, List.filter_eq_nil_iff.2
    (fun e he => by cases rightOf e <;> simp), List.append_nil] at this
  exact this.trans ((hu.append_left _).filter _)

/-- a closure accepting lone right items, on `demo`: the pairs are torn apart -/
example : ∃ m', demo.drainFilterTake (logging fun (_ : Unit) e => ((leftOf e).isNone, ())) ([], ()) 0 = .ok m' ∧
    m'.2.1.1.length = 6 ∧ m'.2.2.isLeftPaired 1 = true ∧ m'.2.2.getRight 1 = none := by
  obtain ⟨d1, d2, a1, k1, a2, k2, s1, s2, m2, g1, g2, g3, g4, g5, g6, g7, g8⟩ :=
    C54_actual demo_reachable demo_shows (fun (_ : Unit) e => ((leftOf e).isNone, ())) () 0
  have e1 := split_pure (f := fun (_ : Unit) (e : OptionalPair Nat Nat) => ((leftOf e).isNone, ()))
    (g := fun e => (leftOf e).isNone) (fun _ _ => rfl) d1 ()
  have e2 := split_pure (f := fun (u : Unit) (e : OptionalPair Nat Nat) => ((leftOf (asRight e)).isNone, ()))
    (g := fun e => (leftOf (asRight e)).isNone) (fun _ _ => rfl) d2 s1
  rw [g2] at e1; rw [g4] at e2
  have hk : k1.Perm [someLeft 3, someBoth 2 20, someBoth 1 10] := by
    rw [show k1 = _ from e1.2]; exact g1.filter _
  have hd2 : d2.Perm [someBoth 2 20, someBoth 1 10, someRight 30] := g3.trans ((hk.append_right _).filter _)
  have ha : someBoth 1 10 ∈ a2 := by
    rw [show a2 = _ from e2.1]; exact ((hd2.filter _).mem_iff).2 (by simp [asRight, leftOf])
  refine ⟨_, g5, ?_, (g8 1 10 ha).1, (g8 1 10 ha).2.1⟩
  have := g1.length_eq; have h2 := hd2.length_eq
  simp [leftOf] at this h2
  simp; omega

/-- C54 holds of closures that accept `SomeRight(r)` for no right item `r` of a pair they reject.  Missing: other
closures (`C144_drain_filter`: the map is never intact with them), and the closure being called once per entry (see
`C54_actual` for the calls). -/
theorem C54_partial (h : Reachable m) (hc : Shows m c) (g : OptionalPair L R → Bool) (n : Nat)
    (hg : ∀ l r, someBoth l r ∈ c → g (someBoth l r) = false → g (someRight r) = false) :
    ∃ (d : List (OptionalPair L R)) (m' : PartialMap L R), d.Perm (c.filter g) ∧
      m.drainFilterTake (fun (_ : Unit) e => (g e, ())) () n = .ok (d.take n, (), m') ∧
      Shows m' (c.filter fun e => !g e) := by
  obtain ⟨d1, us, d2, m', h1, h2, h3, h4, h5, h6, _, _, _, _, _, h7⟩ :=
    drainFilterTake_whole (h.repr_of_shows hc) (fun (_ : Unit) e => (g e, ())) () n
  have k1 := split_pure (f := fun (_ : Unit) e => (g e, ())) (g := g) (fun _ _ => rfl) d1 ()
  have k2 := fun u => split_pure (f := fun (_ : Unit) e => (g (asRight e), ())) (g := fun e => g (asRight e)) (fun _ _ => rfl) d2 u
  rw [k1.2] at h4 h7
  rw [k1.1, (k2 _).1] at h6
  rw [(k2 _).1, (k2 _).2] at h7
  have hmem : ∀ e ∈ d2, e ∈ c ∧ ((leftOf e).isSome = true → g e = false) := by
    intro e he
    have := h4.mem_iff.1 (List.mem_append_left _ he)
    rcases List.mem_append.1 this with hm | hm
    · obtain ⟨hm, hf⟩ := List.mem_filter.1 hm
      exact ⟨h1.mem_iff.1 (List.mem_append_left _ hm), fun _ => by simpa using hf⟩
    · exact ⟨h1.mem_iff.1 (List.mem_append_right _ hm), fun hl => by rw [h3 e hm] at hl; cases hl⟩
  have hcase : ∀ e ∈ d2, (leftOf e = none ∧ asRight e = e) ∨ (g (asRight e) = false ∧ g e = false) := by
    intro e he
    obtain ⟨hm, hf⟩ := hmem e he
    have hr := h5 e he
    cases e with
    | neither => cases hr
    | someLeft _ => cases hr
    | someRight r => exact .inl ⟨rfl, rfl⟩
    | someBoth l r => exact .inr ⟨hg l r hm (hf rfl), hf rfl⟩
  have h7 := h7 fun l r hm => by
    obtain ⟨hm, hg'⟩ := List.mem_filter.1 hm
    rcases hcase _ hm with ⟨h, _⟩ | ⟨h, _⟩
    · cases h
    · rw [h] at hg'; cases hg'
  have heq : ∀ e ∈ d2, g (asRight e) = g e := by
    intro e he; rcases hcase e he with ⟨_, h⟩ | ⟨h, h'⟩
    · rw [h]
    · rw [h, h']
  have hX : ∀ e ∈ (d1.filter fun e => !g e).filter (fun e => (rightOf e).isNone), g e = false := by
    intro e he; simpa using (List.mem_filter.1 (List.mem_filter.1 he).1).2
  rw [List.filter_congr heq] at h6
  rw [List.filter_congr (fun e he => by rw [heq e he] : ∀ e ∈ d2, (!g (asRight e)) = !g e)] at h7
  have hmap : (d2.filter fun e => g e).map asRight = d2.filter fun e => g e := by
    rw [List.map_congr_left (g := id), List.map_id]
    intro e he
    obtain ⟨he, hge⟩ := List.mem_filter.1 he
    rcases hcase e he with ⟨_, h⟩ | ⟨_, h⟩
    · exact h
    · rw [h] at hge; cases hge
  rw [hmap] at h6
  refine ⟨_, m', ?_, h6, (h7.perm ?_).shows⟩
  · have h8 := h4.filter g
    rw [List.filter_append, List.filter_append,
      List.filter_eq_nil_iff.2 (fun e he => by simp [hX e he] : ∀ e ∈ (d1.filter fun e => !g e).filter (fun e => (rightOf e).isNone), ¬ g e = true),
      List.filter_eq_nil_iff.2 (fun e he => by simpa using (List.mem_filter.1 he).2 : ∀ e ∈ d1.filter fun e => !g e, ¬ g e = true),
      List.append_nil, List.nil_append] at h8
    refine (h8.append_left _).trans ?_
    rw [← List.filter_append]; exact h1.filter _
  · have h8 := h4.filter fun e => !g e
    rw [List.filter_append, List.filter_append,
      List.filter_eq_self.2 (fun e he => by simp [hX e he] : ∀ e ∈ (d1.filter fun e => !g e).filter (fun e => (rightOf e).isNone), (!g e) = true),
      List.filter_eq_self.2 (fun e he => (List.mem_filter.1 he).2 : ∀ e ∈ d1.filter fun e => !g e, (!g e) = true)] at h8
    refine h8.trans ?_
    rw [← List.filter_append]; exact h1.filter _

/-- removing everything that has an odd left item, or no left item and a right item that is lone -/
example : ∃ (d : List (OptionalPair Nat Nat)) (m' : PartialMap Nat Nat), d.Perm [someRight 30, someLeft 3, someBoth 1 10] ∧
    demo.drainFilterTake (fun (_ : Unit) e => ((match e with
      | someLeft l => l % 2 == 1
      | someBoth l _ => l % 2 == 1
      | someRight r => r == 30
      | neither => false), ())) () 2 = .ok (d.take 2, (), m') ∧ Shows m' [someBoth 2 20] :=
  C54_partial demo_reachable demo_shows (fun e => match e with
      | someLeft l => l % 2 == 1
      | someBoth l _ => l % 2 == 1
      | someRight r => r == 30
      | neither => false) 2 (by simp; omega)

omit [RawImpl] [LawfulRaw] in
/-- the witness: a closure accepting lone right items tears pairs apart -/
theorem C54_false : ¬ C54_full := by
  intro h
  letI := messyRaw; haveI := messyRaw_lawful
  let f : Unit → OptionalPair Nat Nat → Bool × Unit := fun _ e => ((leftOf e).isNone, ())
  obtain ⟨d, m', h1, h2, h3⟩ := h Nat Nat demo _ Unit f () 0 demo_reachable demo_shows
  obtain ⟨d1, d2, a1, k1, a2, k2, s1, s2, m2, g1, g2, g3, g4, g5, g6, g7, g8⟩ := C54_actual demo_reachable demo_shows f () 0
  obtain rfl : m2 = m' := (Prod.mk.inj (Prod.mk.inj (Except.ok.inj (g5.symm.trans h2))).2).2
  have e1 := split_pure (f := f) (g := fun e => (leftOf e).isNone) (fun _ _ => rfl) d ()
  rw [e1.2] at h3
  have h4 := g7.symm.trans h3.iterRight
  have e2 := split_pure (f := fun (u : Unit) e => f u (asRight e)) (g := fun e => (leftOf (asRight e)).isNone) (fun _ _ => rfl) d2 s1
  rw [g4] at e2
  have hk : k2 = [] := by
    refine e2.2.trans (List.filter_eq_nil_iff.2 ?_)
    intro e he
    have hr := (List.mem_filter.1 (g3.mem_iff.1 he)).2
    cases e with
    | someLeft _ => cases hr
    | _ => simp [asRight, leftOf]
  rw [hk] at h4
  have h5 := (h4.trans ((h1.filter _).filterMap _)).length_eq
  revert h5; decide

/-! ### C55 -/

/-- C55 in full: `retain`, `retain_paired` and `retain_unpaired` keep, among the entries they are about, those
accepted by the closure.  False, see `C55_false`. -/
def C55_full : Prop :=
  ∀ [RawImpl] [LawfulRaw] (L R : Type) [BEq L] [BEq R] [EquivBEq L] [EquivBEq R] (m : PartialMap L R)
    (c : List (OptionalPair L R)) (g : OptionalPair L R → Bool), Reachable m → Shows m c →
    (∃ m', m.retain (fun (_ : Unit) e => (g e, ())) () = .ok ((), m') ∧ Shows m' (c.filter g)) ∧
    (∃ m', m.retainPaired (fun (_ : Unit) l r => (g (someBoth l r), ())) () = .ok ((), m') ∧
      Shows m' (c.filter fun e => !isPair e || g e)) ∧
    (∃ m', m.retainUnpaired (fun (_ : Unit) e => (g e, ())) () = .ok ((), m') ∧
      Shows m' (c.filter fun e => isPair e || g e))

/-- What happens instead, for every closure with a state.  Each of the three runs the closure once over the
entries it looks at, in some order `d`, and *removes* the entries accepted.  `retain` looks at the entries with
a left item only. -/
theorem C55_actual (h : Reachable m) (hc : Shows m c) {σ : Type} (s : σ) :
    (∀ f : σ → OptionalPair L R → Bool × σ, ∃ (d : List (OptionalPair L R)) (m' : PartialMap L R),
      d.Perm (c.filter fun e => (leftOf e).isSome) ∧ m.retain (logging f) ([], s) = .ok ((d, (split f d s).2.2), m') ∧
      Shows m' ((split f d s).2.1 ++ c.filter fun e => (leftOf e).isNone)) ∧
    (∀ f : σ → L × R → Bool × σ, ∃ (d : List (L × R)) (m' : PartialMap L R), d.Perm (c.filterMap pairOf) ∧
      m.retainPaired (fun s l r => logging f s (l, r)) ([], s) = .ok ((d, (split f d s).2.2), m') ∧
      Shows m' ((split f d s).2.1.map (fun p => someBoth p.1 p.2) ++ c.filter fun e => !isPair e)) ∧
    (∀ f : σ → OptionalPair L R → Bool × σ, ∃ (d : List (OptionalPair L R)) (m' : PartialMap L R),
      d.Perm (c.filter fun e => !isPair e) ∧ m.retainUnpaired (logging f) ([], s) = .ok ((d, (split f d s).2.2), m') ∧
      Shows m' ((split f d s).2.1 ++ c.filter isPair)) := by
  have h := h.repr_of_shows hc
  refine ⟨fun f => ?_, fun f => ?_, fun f => ?_⟩
  · obtain ⟨d, us, m', h1, h2, h3, h4, h5, _⟩ := retain_refines h (logging f) ([], s)
    have k1 := split_logging f id d [] s
    simp only [id, List.map_id', List.map_id_fun, List.nil_append] at k1
    have e1 : split (logging f) d ([], s) = split (fun s a => logging f s a) d ([], s) := rfl
    rw [e1, k1] at h4 h5
    have hd : d.Perm (c.filter fun e => (leftOf e).isSome) := by
      have := h1.filter fun e => (leftOf e).isSome
      rwa [List.filter_append, List.filter_eq_self.2 h2, List.filter_eq_nil_iff.2 (fun e he => by simp [h3 e he]),
        List.append_nil] at this
    have hu : us.Perm (c.filter fun e => (leftOf e).isNone) := by
      have := h1.filter fun e => (leftOf e).isNone
      rwa [List.filter_append, List.filter_eq_nil_iff.2 (fun e he => by
        have := h2 e he; revert this; cases leftOf e <;> simp),
        List.filter_eq_self.2 (fun e he => by simp [h3 e he]), List.nil_append] at this
    exact ⟨d, m', hd, h4, (h5.perm (hu.append_left _)).shows⟩
  · obtain ⟨d, m', h1, h4, h5, _⟩ := retainPaired_refines h (fun s l r => logging f s (l, r)) ([], s)
    have k1 := split_logging f id d [] s
    simp only [id, List.map_id', List.map_id_fun, List.nil_append] at k1
    have e1 : split (fun s (p : L × R) => logging f s (p.1, p.2)) d ([], s) = split (fun s a => logging f s a) d ([], s) := rfl
    rw [e1, k1] at h4 h5
    exact ⟨d, m', h1, h4, h5.shows⟩
  · obtain ⟨d, m', h1, h4, h5, _⟩ := retainUnpaired_refines h (logging f) ([], s)
    have k1 := split_logging f id d [] s
    simp only [id, List.map_id', List.map_id_fun, List.nil_append] at k1
    have e1 : split (logging f) d ([], s) = split (fun s a => logging f s a) d ([], s) := rfl
    rw [e1, k1] at h4 h5
    exact ⟨d, m', h1, h4, h5.shows⟩

/-- `retain_paired(|_, _| true)` empties the pairs -/
example : ∃ (d : List (Nat × Nat)) (m' : PartialMap Nat Nat), d.Perm [(2, 20), (1, 10)] ∧
    demo.retainPaired (fun s l r => logging (fun (_ : Unit) _ => (true, ())) s (l, r)) ([], ()) = .ok ((d, ()), m') ∧
    m'.lenLeft = 1 := by
  obtain ⟨d, m', h1, h2, h3⟩ := (C55_actual demo_reachable demo_shows ()).2.1 (fun (_ : Unit) _ => (true, ()))
  have := split_pure (f := fun (_ : Unit) (_ : Nat × Nat) => (true, ())) (g := fun _ => true) (fun _ _ => rfl) d ()
  rw [this.2] at h3
  refine ⟨d, m', h1, h2, h3.lenLeft.trans ?_⟩
  rw [List.filter_eq_nil_iff.2 (by simp)]; rfl

theorem filterMap_pairs (hc : neither ∉ c) (g : OptionalPair L R → Bool) :
    ((c.filterMap pairOf).filter fun p => g (someBoth p.1 p.2)).map (fun p => someBoth p.1 p.2) =
      c.filter fun e => isPair e && g e := by
  induction c with
  | nil => rfl
  | cons e c ih =>
    have ih := ih (fun h => hc (by simp [h]))
    cases e with
    | someBoth l r =>
      by_cases hg : g (someBoth l r) = true
      · simp [pairOf, isPair, hg, ih]
      · simp [pairOf, isPair, hg, ih]
    | _ =>
      rw [List.filterMap_cons_none rfl, List.filter_cons_of_neg (by simp [isPair])]; exact ih

/-- C55, for closures without state: what the documentation promises happens with the *negated* closure, on
`retain_paired` and `retain_unpaired`, and on `retain` for the entries with a left item.  Missing: the negation. -/
theorem C55_partial (h : Reachable m) (hc : Shows m c) (g : OptionalPair L R → Bool) :
    (∃ m', m.retain (fun (_ : Unit) e => (!g e, ())) () = .ok ((), m') ∧
      Shows m' (c.filter fun e => (leftOf e).isNone || g e)) ∧
    (∃ m', m.retainPaired (fun (_ : Unit) l r => (!g (someBoth l r), ())) () = .ok ((), m') ∧
      Shows m' (c.filter fun e => !isPair e || g e)) ∧
    (∃ m', m.retainUnpaired (fun (_ : Unit) e => (!g e, ())) () = .ok ((), m') ∧
      Shows m' (c.filter fun e => isPair e || g e)) := by
  have hr := h.repr_of_shows hc
  have key : ∀ (P : OptionalPair L R → Bool),
      ((c.filter P).filter (fun e => g e) ++ c.filter fun e => !P e).Perm (c.filter fun e => !P e || g e) := by
    intro P
    have h1 := List.filter_append_perm P (c.filter fun e => !P e || g e)
    rw [List.filter_filter, List.filter_filter] at h1
    refine List.Perm.trans ?_ h1
    rw [List.filter_filter]
    refine .append (.of_eq ?_) (.of_eq ?_) <;> refine List.filter_congr fun e _ => ?_ <;> cases P e <;> cases g e <;> rfl
  have hnot : (fun e : OptionalPair L R => (leftOf e).isNone) = fun e => !(leftOf e).isSome := by
    funext e; cases leftOf e <;> rfl
  refine ⟨?_, ?_, ?_⟩
  · obtain ⟨d, us, m', h1, h2, h3, h4, h5, _⟩ := retain_refines hr (fun (_ : Unit) e => (!g e, ())) ()
    have k1 := split_pure (f := fun (_ : Unit) e => (!g e, ())) (g := fun e => !g e) (fun _ _ => rfl) d ()
    rw [k1.2] at h5
    refine ⟨m', h4, (h5.perm ?_).shows⟩
    have hd : d.Perm (c.filter fun e => (leftOf e).isSome) := by
      have := h1.filter fun e => (leftOf e).isSome
      rwa [List.filter_append, List.filter_eq_self.2 h2, List.filter_eq_nil_iff.2 (fun e he => by simp [h3 e he]),
        List.append_nil] at this
    have hu : us.Perm (c.filter fun e => !(leftOf e).isSome) := by
      have := h1.filter fun e => !(leftOf e).isSome
      rwa [List.filter_append, List.filter_eq_nil_iff.2 (fun e he => by simp [h2 e he]),
        List.filter_eq_self.2 (fun e he => by simp [h3 e he]), List.nil_append] at this
    refine ((hd.filter _).append hu).trans ?_
    have := key fun e => (leftOf e).isSome
    simp only [Bool.not_not]
    rw [show (fun e : OptionalPair L R => (leftOf e).isNone || g e) = fun e => !(leftOf e).isSome || g e from by
      funext e; cases leftOf e <;> rfl]
    exact this
  · obtain ⟨d, m', h1, h4, h5, _⟩ := retainPaired_refines hr (fun (_ : Unit) l r => (!g (someBoth l r), ())) ()
    have k1 := split_pure (f := fun (_ : Unit) (p : L × R) => (!g (someBoth p.1 p.2), ()))
      (g := fun p => !g (someBoth p.1 p.2)) (fun _ _ => rfl) d ()
    rw [k1.2] at h5
    refine ⟨m', h4, (h5.perm ?_).shows⟩
    simp only [Bool.not_not]
    refine (((h1.filter _).map _).append_right _).trans ?_
    rw [filterMap_pairs hc.oneToOne.2]
    have := key isPair
    rw [List.filter_filter] at this
    rwa [show (fun e : OptionalPair L R => isPair e && g e) = fun e => g e && isPair e from by
      funext e; exact Bool.and_comm _ _]
  · obtain ⟨d, m', h1, h4, h5, _⟩ := retainUnpaired_refines hr (fun (_ : Unit) e => (!g e, ())) ()
    have k1 := split_pure (f := fun (_ : Unit) e => (!g e, ())) (g := fun e => !g e) (fun _ _ => rfl) d ()
    rw [k1.2] at h5
    refine ⟨m', h4, (h5.perm ?_).shows⟩
    simp only [Bool.not_not]
    refine (((h1.filter _)).append_right _).trans ?_
    have := key fun e => !isPair e
    simpa only [Bool.not_not] using this

example : ∃ m', demo.retain (fun (_ : Unit) e => (!isPair e, ())) () = .ok ((), m') ∧
    Shows m' [someRight 30, someBoth 2 20, someBoth 1 10] :=
  (C55_partial demo_reachable demo_shows isPair).1

omit [RawImpl] [LawfulRaw] in
/-- the witness: `retain(|_| true)` -/
theorem C55_false : ¬ C55_full := by
  intro h
  letI := messyRaw; haveI := messyRaw_lawful
  obtain ⟨m', e, s⟩ := (h Nat Nat demo _ (fun _ => true) demo_reachable demo_shows).1
  obtain ⟨m'', e', s'⟩ := (C55_partial demo_reachable demo_shows (fun _ => false)).1
  simp only [Bool.not_false] at e'
  rw [e] at e'; cases e'
  have := s.lenLeft.symm.trans s'.lenLeft
  revert this; decide

omit [RawImpl] [LawfulRaw] in
/-- `retain_paired` and `retain_unpaired` are inverted, too -/
theorem C55_false_paired_unpaired : ¬ (∀ [RawImpl] [LawfulRaw] (m : PartialMap Nat Nat) (c : List (OptionalPair Nat Nat)),
      Reachable m → Shows m c →
      ∃ m', m.retainPaired (fun (_ : Unit) _ _ => (true, ())) () = .ok ((), m') ∧ Shows m' c) ∧
    ¬ (∀ [RawImpl] [LawfulRaw] (m : PartialMap Nat Nat) (c : List (OptionalPair Nat Nat)), Reachable m → Shows m c →
      ∃ m', m.retainUnpaired (fun (_ : Unit) _ => (true, ())) () = .ok ((), m') ∧ Shows m' c) := by
  constructor
  · intro h
    letI := messyRaw; haveI := messyRaw_lawful
    obtain ⟨m', e, s⟩ := h demo _ demo_reachable demo_shows
    obtain ⟨m'', e', s'⟩ := (C55_partial demo_reachable demo_shows (fun _ => false)).2.1
    simp only [Bool.not_false] at e'
    rw [e] at e'; cases e'
    have := s.lenLeft.symm.trans s'.lenLeft
    revert this; decide
  · intro h
    letI := messyRaw; haveI := messyRaw_lawful
    obtain ⟨m', e, s⟩ := h demo _ demo_reachable demo_shows
    obtain ⟨m'', e', s'⟩ := (C55_partial demo_reachable demo_shows (fun _ => false)).2.2
    simp only [Bool.not_false] at e'
    rw [e] at e'; cases e'
    have := s.lenLeft.symm.trans s'.lenLeft
    revert this; decide

end Verif.PartialMap
