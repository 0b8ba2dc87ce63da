import Verif.PartialMap.Repair
import Verif.Props.DropEnd
import Verif.Props.PartialTraits
/-! Property C134: small changes to the code of `PartialCycleMap` after which the documentation is true. -/
set_option linter.unusedSectionVars false
set_option linter.unusedSimpArgs false
namespace Verif.PartialMap
open PartialSpec OptionalPair Demo
open CycleSpec (split)
open CycleMap (Ending split_append split_perm)

variable [RawImpl] [LawfulRaw] {L R τ : Type} [BEq L] [BEq R] [EquivBEq L] [EquivBEq R]
variable {m : PartialMap L R} {c : List (OptionalPair L R)}

/-! ### unpair and the swaps -/

/-- C134, for C41: with the check at the start, partners are unpaired and nothing happens to others, whatever the hashes are. -/
theorem C134_unpair (h : Reachable m) (hc : Shows m c) (l : L) (r : R) :
    (∀ a b, someBoth a b ∈ c → (l == a) = true → (r == b) = true → ∃ m', Repair.unpair m l r = (true, m') ∧
      UsableAs m' (someLeft a :: someRight b :: c.filter fun e => !hasL l e && !hasR r e)) ∧
    ((∀ e ∈ c, (hasL l e && hasR r e) = false) → Repair.unpair m l r = (false, m)) := by
  have hr := h.repr_of_shows hc
  constructor
  · intro a b hm ha hb
    have hp : hasPair c l r = true := List.any_eq_true.2 ⟨_, hm, by simp [hasL, hasR, ha, hb]⟩
    obtain ⟨m', e, h', -⟩ := unpair_refines hr l r (fun _ _ _ _ _ _ _ _ _ _ => hp)
    have hu := h'.usable
    rw [PartialSpec.unpair, hp, if_pos rfl] at e hu
    rw [mem_findL hc.oneToOne hm (l := l) ha, mem_findR hc.oneToOne hm (r := r) hb] at hu
    exact ⟨m', by rw [Repair.unpair, hc.arePaired, hp, e]; rfl, hu⟩
  · intro hn
    rw [Repair.unpair, hc.arePaired, show hasPair c l r = false from List.any_eq_false.2 (by simpa using hn)]; rfl

/-- 1 and 20 are both paired, all hashes are equal: the items stay as they are -/
example : Repair.unpair demo 1 20 = (false, demo) := (C134_unpair demo_reachable demo_shows 1 20).2 (by decide)
example : ∃ m', Repair.unpair demo 1 10 = (true, m') ∧ Shows m' [someLeft 1, someRight 10, someRight 30, someLeft 3, someBoth 2 20] := by
  obtain ⟨m', e, h⟩ := (C134_unpair demo_reachable demo_shows 1 10).1 1 10 (by simp) rfl rfl
  exact ⟨m', e, h.1⟩

/-- C134, for C47: with the check at the start, the swaps of an absent item do nothing at all, and of a present item they are the swaps. -/
theorem C134_swap (hc : Shows m c) :
    (∀ old new : L, ((∀ e ∈ c, hasL old e = false) → Repair.swapLeft m old new = .ok (neither, m)) ∧
      ((∃ e ∈ c, hasL old e = true) → Repair.swapLeft m old new = m.swapLeft old new)) ∧
    (∀ old new : R, ((∀ e ∈ c, hasR old e = false) → Repair.swapRight m old new = .ok (neither, m)) ∧
      ((∃ e ∈ c, hasR old e = true) → Repair.swapRight m old new = m.swapRight old new)) := by
  refine ⟨fun old new => ⟨fun ho => ?_, fun ho => ?_⟩, fun old new => ⟨fun ho => ?_, fun ho => ?_⟩⟩
  · rw [Repair.swapLeft, hc.containsLeft, List.any_eq_false.2 (by simpa using ho)]; rfl
  · rw [Repair.swapLeft, hc.containsLeft, List.any_eq_true.2 ho]; rfl
  · rw [Repair.swapRight, hc.containsRight, List.any_eq_false.2 (by simpa using ho)]; rfl
  · rw [Repair.swapRight, hc.containsRight, List.any_eq_true.2 ho]; rfl

/-- the witness of `C47_false` -/
example : Repair.swapLeft demo 7 2 = .ok (neither, demo) := ((C134_swap demo_shows).1 7 2).1 (by decide)

theorem ne_neither {o : OneToOne c} {e : OptionalPair L R} (he : e ∈ c) : e ≠ neither := fun h => o.2 (h ▸ he)

/-- C134, for C49: no panic; with `old` absent the pair is inserted, and a single displaced entry is handed back whole; of two
of them the return type has no place for the partner of `new`. -/
theorem C134_swap_left_or_insert (h : Reachable m) (hc : Shows m c) (old new : L) (r : R) :
    ((∃ e ∈ c, hasL old e = true) → Repair.swapLeftOrInsert m old new r = m.swapLeft old new) ∧
    ((∀ e ∈ c, hasL old e = false) → ∃ o m', Repair.swapLeftOrInsert m old new r = .ok (o, m') ∧
      UsableAs m' (someBoth new r :: c.filter fun e => !hasL new e && !hasR r e) ∧
      (∀ e ∈ c, (∀ e' ∈ c, (hasL new e' = true ∨ hasR r e' = true) ↔ e' = e) → o = someRight e) ∧
      (∀ e ∈ c, ∀ e' ∈ c, e ≠ e' → hasL new e = true → hasR r e' = true → o = ofPair (leftOf e, some e')) ∧
      ((∀ e ∈ c, hasL new e = false ∧ hasR r e = false) → o = neither)) := by
  have hr := h.repr_of_shows hc
  refine ⟨fun ho => ?_, fun ho => ?_⟩
  · have : m.containsLeft old = true := by rw [hc.containsLeft]; exact List.any_eq_true.2 ho
    rw [Repair.swapLeftOrInsert, show (m.left.get (m.hb.hl old) (equivalentKey old)).isSome = true from this, if_pos rfl]
  · have hold : (m.left.get (m.hb.hl old) (equivalentKey old)).isSome = false := by
      have : m.containsLeft old = false := by rw [hc.containsLeft]; exact List.any_eq_false.2 (by simpa using ho)
      exact this
    obtain ⟨m', e, h', -⟩ := insert_refines hr new r
    have hu := h'.usable
    simp only [PartialSpec.insert, others] at e hu
    have fL : ∀ e ∈ c, hasL new e = true → findL c new = some e := fun e he hl => mem_findL hc.oneToOne he hl
    have fR : ∀ e ∈ c, hasR r e = true → findR c r = some e := fun e he hl => mem_findR hc.oneToOne he hl
    have nL : (∀ e ∈ c, hasL new e = false) → findL c new = none := findL_none
    have nR : (∀ e ∈ c, hasR r e = false) → findR c r = none := findR_none
    have nn : ∀ e ∈ c, e ≠ neither := fun e he => ne_neither (o := hc.oneToOne) he
    have step : ∀ (p q : OptionalPair L R), m.insert new r = .ok ((p, q), m') → Repair.swapLeftOrInsert m old new r =
        .ok (match p, q with
          | neither, neither => neither
          | neither, e => someRight e
          | e, neither => someRight e
          | e, e' => ofPair (e.toPair.1, some e'), m') := by
      intro p q hi
      rw [Repair.swapLeftOrInsert, hold, if_neg (by simp), hi]
      cases p <;> cases q <;> rfl
    refine ⟨_, m', step _ _ e, hu, ?_, ?_, ?_⟩
    · intro x hx H
      have hxn := nn x hx
      have hone : ∀ e' ∈ c, e' ≠ x → hasL new e' = false ∧ hasR r e' = false := fun e' he' hne => by
        have := mt (H e' he').1 hne
        simpa [not_or] using this
      cases h1 : hasL new x with
      | true =>
        rw [fL x hx h1]
        cases h2 : hasR r x with
        | true =>
          rw [show hasPair c new r = true from List.any_eq_true.2 ⟨x, hx, by simp [h1, h2]⟩]
          cases x <;> first | rfl | exact absurd rfl hxn
        | false =>
          rw [nR fun e' he' => by
            by_cases hq : e' = x
            · rw [hq, h2]
            · exact (hone e' he' hq).2]
          cases x <;> first | exact absurd rfl hxn | simp
      | false =>
        have h2 := ((H x hx).2 rfl).resolve_left (by simp [h1])
        have h3 : ∀ e' ∈ c, hasL new e' = false := fun e' he' => by
          by_cases hq : e' = x
          · rw [hq, h1]
          · exact (hone e' he' hq).1
        rw [nL h3, fR x hx h2, show hasPair c new r = false from List.any_eq_false.2 fun e' he' => by simp [h3 e' he']]
        cases x <;> first | rfl | exact absurd rfl hxn
    · intro x hx y hy hxy h1 h2
      have hxn := nn x hx
      have hyn := nn y hy
      have hp : hasPair c new r = false := List.any_eq_false.2 fun e' he' => by
        intro hb
        rw [Bool.and_eq_true] at hb
        have := fL x hx h1
        rw [fL e' he' hb.1] at this
        have h4 := fR y hy h2
        rw [fR e' he' hb.2] at h4
        exact hxy ((Option.some.inj this).symm.trans (Option.some.inj h4))
      rw [fL x hx h1, fR y hy h2, hp]
      cases x <;> cases y <;> first | rfl | exact absurd rfl hxn | exact absurd rfl hyn
    · intro H
      rw [nL fun e he => (H e he).1, nR fun e he => (H e he).2]
      simp

/-- C134, for C49, on the other side. -/
theorem C134_swap_right_or_insert (h : Reachable m) (hc : Shows m c) (old new : R) (l : L) :
    ((∃ e ∈ c, hasR old e = true) → Repair.swapRightOrInsert m old new l = m.swapRight old new) ∧
    ((∀ e ∈ c, hasR old e = false) → ∃ o m', Repair.swapRightOrInsert m old new l = .ok (o, m') ∧
      UsableAs m' (someBoth l new :: c.filter fun e => !hasL l e && !hasR new e) ∧
      (∀ e ∈ c, (∀ e' ∈ c, (hasL l e' = true ∨ hasR new e' = true) ↔ e' = e) → o = someRight e) ∧
      (∀ e ∈ c, ∀ e' ∈ c, e ≠ e' → hasL l e = true → hasR new e' = true → o = ofPair (rightOf e', some e)) ∧
      ((∀ e ∈ c, hasL l e = false ∧ hasR new e = false) → o = neither)) := by
  have hr := h.repr_of_shows hc
  refine ⟨fun ho => ?_, fun ho => ?_⟩
  · have : m.containsRight old = true := by rw [hc.containsRight]; exact List.any_eq_true.2 ho
    rw [Repair.swapRightOrInsert, show (m.right.get (m.hb.hr old) (equivalentKey old)).isSome = true from this, if_pos rfl]
  · have hold : (m.right.get (m.hb.hr old) (equivalentKey old)).isSome = false := by
      have : m.containsRight old = false := by rw [hc.containsRight]; exact List.any_eq_false.2 (by simpa using ho)
      exact this
    obtain ⟨m', e, h', -⟩ := insert_refines hr l new
    have hu := h'.usable
    simp only [PartialSpec.insert, others] at e hu
    have fL : ∀ e ∈ c, hasL l e = true → findL c l = some e := fun e he hl => mem_findL hc.oneToOne he hl
    have fR : ∀ e ∈ c, hasR new e = true → findR c new = some e := fun e he hl => mem_findR hc.oneToOne he hl
    have nL : (∀ e ∈ c, hasL l e = false) → findL c l = none := findL_none
    have nR : (∀ e ∈ c, hasR new e = false) → findR c new = none := findR_none
    have nn : ∀ e ∈ c, e ≠ neither := fun e he => ne_neither (o := hc.oneToOne) he
    have step : ∀ (p q : OptionalPair L R), m.insert l new = .ok ((p, q), m') → Repair.swapRightOrInsert m old new l =
        .ok (match p, q with
          | neither, neither => neither
          | e, neither => someRight e
          | neither, e => someRight e
          | e, e' => ofPair (e'.toPair.2, some e), m') := by
      intro p q hi
      rw [Repair.swapRightOrInsert, hold, if_neg (by simp), hi]
      cases p <;> cases q <;> rfl
    refine ⟨_, m', step _ _ e, hu, ?_, ?_, ?_⟩
    · intro x hx H
      have hxn := nn x hx
      have hone : ∀ e' ∈ c, e' ≠ x → hasL l e' = false ∧ hasR new e' = false := fun e' he' hne => by
        have := mt (H e' he').1 hne
        simpa [not_or] using this
      cases h1 : hasL l x with
      | true =>
        rw [fL x hx h1]
        cases h2 : hasR new x with
        | true =>
          rw [show hasPair c l new = true from List.any_eq_true.2 ⟨x, hx, by simp [h1, h2]⟩]
          cases x <;> first | rfl | exact absurd rfl hxn
        | false =>
          rw [nR fun e' he' => by
            by_cases hq : e' = x
            · rw [hq, h2]
            · exact (hone e' he' hq).2]
          cases x <;> first | exact absurd rfl hxn | simp
      | false =>
        have h2 := ((H x hx).2 rfl).resolve_left (by simp [h1])
        have h3 : ∀ e' ∈ c, hasL l e' = false := fun e' he' => by
          by_cases hq : e' = x
          · rw [hq, h1]
          · exact (hone e' he' hq).1
        rw [nL h3, fR x hx h2, show hasPair c l new = false from List.any_eq_false.2 fun e' he' => by simp [h3 e' he']]
        cases x <;> first | rfl | exact absurd rfl hxn
    · intro x hx y hy hxy h1 h2
      have hxn := nn x hx
      have hyn := nn y hy
      have hp : hasPair c l new = false := List.any_eq_false.2 fun e' he' => by
        intro hb
        rw [Bool.and_eq_true] at hb
        have := fL x hx h1
        rw [fL e' he' hb.1] at this
        have h4 := fR y hy h2
        rw [fR e' he' hb.2] at h4
        exact hxy ((Option.some.inj this).symm.trans (Option.some.inj h4))
      rw [fL x hx h1, fR y hy h2, hp]
      cases x <;> cases y <;> first | rfl | exact absurd rfl hxn
    · intro H
      rw [nL fun e he => (H e he).1, nR fun e he => (H e he).2]
      simp

/-- these panic as they are (`C49_panics`) -/
example : ∃ o m', Repair.swapLeftOrInsert demo 7 2 99 = .ok (o, m') ∧ o = someRight (someBoth 2 20) ∧
    Shows m' [someBoth 2 99, someRight 30, someLeft 3, someBoth 1 10] := by
  obtain ⟨o, m', e, h, h1, _⟩ := (C134_swap_left_or_insert demo_reachable demo_shows 7 2 99).2 (by decide)
  exact ⟨o, m', e, h1 (someBoth 2 20) (by simp) (by simp [hasL, hasR]), h.1⟩
example : ∃ o m', Repair.swapRightOrInsert demo 70 20 1 = .ok (o, m') ∧ o = someBoth 20 (someBoth 1 10) ∧
    Shows m' [someBoth 1 20, someRight 30, someLeft 3] := by
  obtain ⟨o, m', e, h, _, h2, _⟩ := (C134_swap_right_or_insert demo_reachable demo_shows 70 20 1).2 (by decide)
  exact ⟨o, m', e, h2 (someBoth 1 10) (by simp) (someBoth 2 20) (by simp) (by simp) rfl rfl, h.1⟩

/-! ### iter -/

theorem nextR_todoL (rs : List (MappingPair R)) {o : OptionalPair L R} {it' : UnpairedIter L R}
    (h : UnpairedIter.nextR rs = some (o, it')) : it'.todoL = [] := by
  induction rs with
  | nil => cases h
  | cons r rs ih =>
    rw [UnpairedIter.nextR] at h
    split at h
    · exact ih h
    · cases h; rfl

theorem repair_iter_take {ps : List (Rec L R)} (h : Rep m ps) (n : Nat) {qs : List (Rec L R)} {rs : List (MappingPair R)}
    (hq : ∀ q ∈ qs, q ∈ ps) (hs : ∀ q ∈ qs, (leftOf q.e).isSome = true) :
    (Repair.Iter.take m n ⟨elemsL m.hb qs, rs⟩).1 = (qs.map Rec.e ++ UnpairedIter.future ⟨[], rs⟩).take n := by
  induction n generalizing qs rs with
  | zero => rfl
  | succ n ih =>
    cases qs with
    | nil =>
      have he : elemsL m.hb ([] : List (Rec L R)) = [] := rfl
      rcases UnpairedIter.nextR_eq (L := L) rs with ⟨h1, h2⟩ | ⟨o, ⟨tl, tr⟩, h1, h2⟩
      · simp [Repair.Iter.take, Repair.Iter.next, he, h1, h2]
      · cases nextR_todoL rs h1
        have := ih (qs := []) (rs := tr) (by simp) (by simp)
        rw [he] at this
        simp only [Repair.Iter.take, Repair.Iter.next, he, h1, h2, this]; rfl
    | cons q qs =>
      obtain ⟨x, hx⟩ := exists_toL (hb := m.hb) (hs q (by simp))
      have hl := (toL_some hx).2.1
      rw [elemsL_cons hx]
      have ih := ih (qs := qs) (rs := rs) (fun x hx => hq x (List.mem_cons_of_mem _ hx)) (fun x hx => hs x (List.mem_cons_of_mem _ hx))
      simp only [Repair.Iter.take, Repair.Iter.next, h.getRight_mem (hq q (by simp)) hl, ← hl, ofPair_of, ih]; rfl

theorem repair_iter (h : Repr m c) : ∃ d : List (OptionalPair L R), d.Perm c ∧ ∀ n, (Repair.Iter.take m n (Repair.iter m)).1 = d.take n := by
  obtain ⟨qs, us, hp, hr, he, hs, hn⟩ := h.ordered
  have h1 := fun n => repair_iter_take hr n (rs := m.right.toList) (fun q hq => List.mem_append_left _ hq) hs
  refine ⟨qs.map Rec.e ++ UnpairedIter.future ⟨[], m.right.toList⟩, ?_, fun n => ?_⟩
  rotate_left
  · rw [← h1 n, Repair.iter]
    simp [RawTable.toList, he, elemsL]
  · refine .trans (.append_left _ ?_) (by rw [List.map_append] at hp; exact hp)
    have h2 := (hr.right.map (·.2)).filterMap
      (fun r : MappingPair R => if r.hash.isSome then none else some (someRight r.value : OptionalPair L R))
    rw [futureR_eq] at h2
    refine .trans (l₂ := ((qs ++ us).filter loneR).map Rec.e) (by simpa [UnpairedIter.future, RawTable.toList] using h2) ?_
    rw [List.filter_append, List.filter_eq_nil_iff.2, List.nil_append, List.filter_eq_self.2]
    · intro u hu
      obtain ⟨r, hr'⟩ := loneRight_of (hn u hu) (hr.nonempty u (List.mem_append_right _ hu))
      simp [loneR, hr']
    · intro q hq
      have := hs q hq
      revert this
      cases hqe : q.e <;> simp [leftOf, loneR, hqe]

theorem length_le_lens {c : List (OptionalPair L R)} (h : neither ∉ c) :
    c.length ≤ (c.filterMap leftOf).length + (c.filterMap rightOf).length := by
  induction c with
  | nil => simp
  | cons e c ih =>
    have := ih fun hm => h (List.mem_cons_of_mem _ hm)
    cases e with
    | neither => exact absurd (by simp) h
    | _ => simp only [List.filterMap_cons, leftOf, rightOf, List.length_cons]; omega

theorem repair_iterList (h : Repr m c) : (Repair.iterList m).Perm c := by
  obtain ⟨d, hp, hd⟩ := repair_iter h
  rw [Repair.iterList, hd, List.take_of_length_le]
  · exact hp
  · have := length_le_lens h.oneToOne.2
    rw [hp.length_eq, lenLeft_refines h, lenRight_refines h]; omega

/-- C134, for C50: `iter` with both tables visits every pair and every lone item once, and not in part of them more. -/
theorem C134_iter (h : Reachable m) (hc : Shows m c) :
    (Repair.iterList m).Perm c ∧ ∀ n, (Repair.Iter.take m n (Repair.iter m)).1 = (Repair.iterList m).take n := by
  have hr := h.repr_of_shows hc
  obtain ⟨d, hp, hd⟩ := repair_iter hr
  refine ⟨repair_iterList hr, fun n => ?_⟩
  rw [Repair.iterList, hd, hd, List.take_take]
  have := length_le_lens hr.oneToOne.2
  rw [← hp.length_eq, ← lenLeft_refines hr, ← lenRight_refines hr] at this
  by_cases hn : n ≤ m.lenLeft + m.lenRight + 1
  · rw [Nat.min_eq_left hn]
  · rw [List.take_of_length_le (by omega), List.take_of_length_le (by omega)]

/-- the lone right item 30 is visited, too -/
example : (Repair.iterList demo).Perm [someRight 30, someLeft 3, someBoth 2 20, someBoth 1 10] := (C134_iter demo_reachable demo_shows).1

/-! ### drain -/

theorem repair_drain_rest (n : Nat) (t : RawTable (MappingPair R)) (rs : List (MappingPair R)) :
    ∃ it', Repair.DrainIter.take (L := L) n ⟨[], t, some rs⟩ = .ok ((rs.map fun r => someRight r.value).take n, it') ∧ it'.len = (rs.drop n).length := by
  induction n generalizing t rs with
  | zero => exact ⟨_, rfl, by simp [Repair.DrainIter.len]⟩
  | succ n ih =>
    cases rs with
    | nil => exact ⟨_, rfl, by simp [Repair.DrainIter.len]⟩
    | cons r rs =>
      obtain ⟨it', e, hl⟩ := ih (RawTable.withCapacity 0) rs
      exact ⟨it', by simp only [Repair.DrainIter.take, Repair.DrainIter.next, Option.getD_some, bind, Except.bind, e]; rfl, hl⟩

theorem lone_count {hb : BuildHasher L R} {qs us : List (Rec L R)} {t : RawTable (MappingPair R)}
    (ht : t.entries.Perm (tabR hb (qs ++ us))) (hs : ∀ q ∈ qs, (leftOf q.e).isSome = true) (hu : ∀ u ∈ us, ∃ r, u.e = someRight r) :
    (t.toList.filter fun r => r.hash.isNone).length = us.length := by
  rw [RawTable.toList, ((ht.map (·.2)).filter fun r => r.hash.isNone).length_eq, tabR, List.filterMap_append, List.map_append, List.filter_append,
    List.filter_eq_nil_iff.2, List.nil_append, List.filter_eq_self.2, List.length_map]
  · clear ht
    induction us with
    | nil => rfl
    | cons u us ih =>
      obtain ⟨r, hr⟩ := hu u (by simp)
      have : toR hb u = some (hb.hr r, ⟨r, none, u.id⟩) := by obtain ⟨e, i⟩ := u; cases hr; rfl
      rw [List.filterMap_cons_some this, List.length_cons, ih fun x hx => hu x (List.mem_cons_of_mem _ hx)]; rfl
  · intro x hx
    obtain ⟨y, hy, rfl⟩ := List.mem_map.1 hx
    obtain ⟨u, hm, he⟩ := List.mem_filterMap.1 hy
    obtain ⟨r, hr⟩ := hu u hm
    obtain ⟨e, i⟩ := u
    cases hr; cases he; rfl
  · intro x hx
    obtain ⟨y, hy, rfl⟩ := List.mem_map.1 hx
    obtain ⟨u, hm, he⟩ := List.mem_filterMap.1 hy
    have := hs u hm
    obtain ⟨e, i⟩ := u
    cases e with
    | neither => cases this
    | someRight => cases this
    | someLeft => cases he
    | someBoth => cases he; simp

theorem repair_drain_take {hb : BuildHasher L R} (n : Nat) {qs us : List (Rec L R)} {t : RawTable (MappingPair R)}
    (ht : t.entries.Perm (tabR hb (qs ++ us))) (ha : (qs ++ us).Pairwise Apart)
    (hs : ∀ q ∈ qs, (leftOf q.e).isSome = true) (hu : ∀ u ∈ us, ∃ r, u.e = someRight r) :
    ∃ d it', d.Perm (us.map Rec.e) ∧ Repair.DrainIter.take n ⟨elemsL hb qs, t, none⟩ = .ok ((qs.map Rec.e ++ d).take n, it') ∧
      it'.len = ((qs.map Rec.e ++ d).drop n).length := by
  cases n with
  | zero =>
    refine ⟨us.map Rec.e, _, .refl _, rfl, ?_⟩
    simp only [Repair.DrainIter.len, elemsL_length hs, lone_count ht hs hu, List.drop_zero, List.length_append, List.length_map]
  | succ n =>
  induction qs generalizing n t with
  | nil =>
    obtain ⟨it', e, hl⟩ := repair_drain_rest (L := L) (n + 1) t t.toList
    refine ⟨_, it', ?_, e, by simpa using hl⟩
    have h2 := (ht.map (·.2.value)).map (fun r => (someRight r : OptionalPair L R))
    rw [tabR_values, List.nil_append] at h2
    have h3 : ((us.map Rec.e).filterMap rightOf).map (fun r => (someRight r : OptionalPair L R)) = us.map Rec.e := by
      clear ht ha h2
      induction us with
      | nil => rfl
      | cons u us ih =>
        obtain ⟨r, hr⟩ := hu u (by simp)
        simp only [List.map_cons, hr, List.filterMap_cons, rightOf, ih fun x hx => hu x (List.mem_cons_of_mem _ hx)]
    rw [h3] at h2
    rw [List.map_map] at h2
    rw [RawTable.toList, List.map_map]; exact h2
  | cons q qs ih =>
    have hs' : ∀ x ∈ qs, (leftOf x.e).isSome = true := fun x hx => hs x (List.mem_cons_of_mem _ hx)
    have ih : ∀ t : RawTable (MappingPair R), t.entries.Perm (tabR hb (qs ++ us)) → ∃ d it', d.Perm (us.map Rec.e) ∧
        Repair.DrainIter.take n ⟨elemsL hb qs, t, none⟩ = .ok ((qs.map Rec.e ++ d).take n, it') ∧
        it'.len = ((qs.map Rec.e ++ d).drop n).length := by
      intro t ht
      cases n with
      | zero =>
        refine ⟨us.map Rec.e, _, .refl _, rfl, ?_⟩
        simp only [Repair.DrainIter.len, elemsL_length hs', lone_count ht hs' hu, List.drop_zero, List.length_append, List.length_map]
      | succ n => exact ih ht (List.pairwise_cons.1 ha).2 hs' n
    have hsq := hs q (by simp)
    obtain ⟨x, hx⟩ := exists_toL (hb := hb) hsq
    rw [elemsL_cons hx]
    obtain ⟨e, i⟩ := q
    cases e with
    | neither => cases hx
    | someRight => cases hx
    | someLeft a =>
      cases hx
      obtain ⟨d, it', hd, e, hl⟩ := ih t ht
      exact ⟨d, it', hd, by simp only [Repair.DrainIter.take, Repair.DrainIter.next, bind, Except.bind, e]; rfl, hl⟩
    | someBoth a b =>
      cases hx
      obtain ⟨t1, e1, h1⟩ := removeR_justId ht (apart_ids ha)
      obtain ⟨d, it', hd, e, hl⟩ := ih t1 h1
      exact ⟨d, it', hd, by simp only [Repair.DrainIter.take, Repair.DrainIter.next, e1, bind, Except.bind, e]; rfl, hl⟩

theorem drain_repair (h : Repr m c) (n : Nat) :
    ∃ (d : List (OptionalPair L R)) (m' : PartialMap L R), d.Perm c ∧ Repair.drainTake m n = .ok (d.take n, m') ∧ Repr m' [] := by
  obtain ⟨qs, us, hp, hr, he, hs, hn⟩ := h.ordered
  obtain ⟨d, it', hd, e, -⟩ := repair_drain_take (hb := m.hb) n hr.right hr.apart hs fun u hu =>
    loneRight_of (hn u hu) (hr.nonempty u (List.mem_append_right _ hu))
  refine ⟨qs.map Rec.e ++ d, { m with left := m.left.clear, right := it'.right.clear }, ?_, ?_, Repr.nil (RawTable.clear_entries _) (RawTable.clear_entries _)⟩
  rotate_left
  · have h0 : m.left.toList = elemsL m.hb qs := by simp [RawTable.toList, he, elemsL]
    rw [Repair.drainTake, h0, e]; rfl
  · exact (hd.append_left _).trans (by rw [List.map_append] at hp; exact hp)

/-- C134, for C53: `drain` yields all pairs and all lone items, and the map is empty wherever it is stopped. -/
theorem C134_drain (h : Reachable m) (hc : Shows m c) (n : Nat) :
    ∃ (d : List (OptionalPair L R)) (m' : PartialMap L R), d.Perm c ∧ Repair.drainTake m n = .ok (d.take n, m') ∧ UsableAs m' [] := by
  obtain ⟨d, m', hp, e, h'⟩ := drain_repair (h.repr_of_shows hc) n
  exact ⟨d, m', hp, e, h'.usable⟩

example : ∃ d m', Repair.drainTake demo 9 = .ok (d, m') ∧ d.Perm [someRight 30, someLeft 3, someBoth 2 20, someBoth 1 10] ∧ Shows m' [] := by
  obtain ⟨d, m', hp, e, h⟩ := C134_drain demo_reachable demo_shows 9
  exact ⟨_, m', e, by rw [List.take_of_length_le (by simp [hp.length_eq])]; exact hp, h.1⟩

/-! ### sizes -/

theorem repair_iter_split (k n : Nat) (it : UnpairedIter L R) :
    (Repair.Iter.take m (k + n) it).1 = (Repair.Iter.take m k it).1 ++ (Repair.Iter.take m n (Repair.Iter.take m k it).2).1 := by
  induction k generalizing it with
  | zero => rw [Nat.zero_add]; rfl
  | succ k ih =>
    rw [Nat.add_right_comm]
    cases hn : Repair.Iter.next m it with
    | none =>
      have : ∀ n, Repair.Iter.take m n it = ([], it) := fun n => by cases n <;> simp [Repair.Iter.take, hn]
      simp [this]
    | some v => simp only [Repair.Iter.take, hn, ih]; rfl

theorem repair_nextR_less (rs : List (MappingPair R)) {o : OptionalPair L R} {it' : UnpairedIter L R}
    (h : UnpairedIter.nextR rs = some (o, it')) : it'.todoR.length < rs.length := by
  induction rs with
  | nil => cases h
  | cons r rs ih =>
    rw [UnpairedIter.nextR] at h
    split at h
    · exact Nat.lt_succ_of_lt (ih h)
    · cases h; simp

theorem repair_iter_bound (n : Nat) (it : UnpairedIter L R) : (Repair.Iter.take m n it).1.length ≤ it.todoL.length + it.todoR.length := by
  induction n generalizing it with
  | zero => simp [Repair.Iter.take]
  | succ n ih =>
    cases hn : Repair.Iter.next m it with
    | none => simp [Repair.Iter.take, hn]
    | some v =>
      obtain ⟨o, it'⟩ := v
      simp only [Repair.Iter.take, hn, List.length_cons]
      have := ih it'
      obtain ⟨tl, tr⟩ := it
      cases tl with
      | cons l rest => cases hn; simp at this ⊢; omega
      | nil =>
        have h1 := repair_nextR_less (L := L) tr hn
        rw [nextR_todoL tr hn] at this
        simp at this h1 ⊢; omega

/-- C134, for C52: after any number `k` of steps, the sizes announced are the numbers of the items still to come.  (`Repair.Iter.len` and the two
`size_hint`s are `self.clone().count()`.) -/
theorem C134_sizes (h : Reachable m) (hc : Shows m c) (k : Nat) :
    (Repair.Iter.len m (Repair.Iter.take m k (Repair.iter m)).2 = ((Repair.iterList m).drop k).length) ∧
    (∃ (ps : List (L × R)) (it : PairedIter L R), ps.Perm (c.filterMap pairOf) ∧ PairedIter.take m k m.iterPaired = .ok (ps.take k, it) ∧
      Repair.PairedIter.sizeHint m it = .ok (ps.drop k).length) ∧
    (∃ (es : List (OptionalPair L R)) (it : UnpairedIter L R), es.Perm (c.filter fun e => !isPair e) ∧
      UnpairedIter.take k m.iterUnpaired = (es.take k, it) ∧ Repair.UnpairedIter.sizeHint it = (es.drop k).length) ∧
    (∃ (d : List (OptionalPair L R)) (it : Repair.DrainIter L R), d.Perm c ∧
      Repair.DrainIter.take k ⟨m.left.toList, m.right, none⟩ = .ok (d.take k, it) ∧ it.len = (d.drop k).length) := by
  have hr := h.repr_of_shows hc
  obtain ⟨-, ⟨ps, h1, -, h2⟩, ⟨es, h3, -, h4⟩, -⟩ := C52_partial h hc
  refine ⟨?_, ?_, ?_, ?_⟩
  · obtain ⟨hp, hd⟩ := C134_iter h hc
    generalize Repair.iterList m = d at hp hd
    have h5 := fun n => repair_iter_split (m := m) k n (Repair.iter m)
    generalize hit : (Repair.Iter.take m k (Repair.iter m)).2 = it at h5
    have h6 : ∀ n, (Repair.Iter.take m n it).1 = (d.drop k).take n := fun n => by
      have := h5 n
      rw [hd, hd, List.take_add] at this
      exact (List.append_cancel_left this).symm
    have h7 := repair_iter_bound (m := m) d.length it
    rw [h6, List.take_of_length_le (by simp)] at h7
    rw [Repair.Iter.len, h6, List.take_of_length_le (by omega)]
  · obtain ⟨it, e, e1, -⟩ := h2 k
    exact ⟨ps, it, h1, e, e1⟩
  · obtain ⟨it, e, e1⟩ := h4 k
    exact ⟨es, it, h3, e, e1⟩
  · obtain ⟨qs, us, hp, hr, he, hs, hn⟩ := hr.ordered
    obtain ⟨d, it', hd, e, hl⟩ := repair_drain_take (hb := m.hb) k hr.right hr.apart hs fun u hu =>
      loneRight_of (hn u hu) (hr.nonempty u (List.mem_append_right _ hu))
    have h0 : m.left.toList = elemsL m.hb qs := by simp [RawTable.toList, he, elemsL]
    exact ⟨_, it', (hd.append_left _).trans (by rw [List.map_append] at hp; exact hp), by rw [h0, e], hl⟩

/-- after one step, three entries are to come from `iter` and `drain`, and one from each of the others -/
example : Repair.Iter.len demo (Repair.Iter.take demo 1 (Repair.iter demo)).2 = 3 ∧
    ∃ (d : List (OptionalPair Nat Nat)) (it : Repair.DrainIter Nat Nat), d.Perm [someRight 30, someLeft 3, someBoth 2 20, someBoth 1 10] ∧
      Repair.DrainIter.take 1 ⟨demo.left.toList, demo.right, none⟩ = .ok (d.take 1, it) ∧ it.len = 3 := by
  obtain ⟨h1, -, -, d, it, hp, e, hl⟩ := C134_sizes demo_reachable demo_shows 1
  have h2 := (C134_iter demo_reachable demo_shows).1.length_eq
  exact ⟨by rw [h1, List.length_drop, h2]; rfl, d, it, hp, e, by rw [hl, List.length_drop, hp.length_eq]; rfl⟩

theorem repair_nextR_bound {σ : Type} (f : σ → OptionalPair L R → Bool × σ) (kept todo : List (UInt64 × MappingPair R)) (st : σ) :
    (Repair.DrainFilter.nextR f kept todo st).1.toList.length + (Repair.DrainFilter.nextR f kept todo st).2.2.1.length ≤ todo.length := by
  induction todo generalizing kept st with
  | nil => simp [Repair.DrainFilter.nextR]
  | cons e rest ih =>
    simp only [Repair.DrainFilter.nextR]
    split
    · exact Nat.le_succ_of_le (ih _ _)
    · split
      · simp; omega
      · exact Nat.le_succ_of_le (ih _ _)

/-- C134, for C104: from any state of a `drain_filter` iterator, the items it goes on to yield are at most as many as `size_hint` says, and it says
as many less afterwards. -/
theorem C134_size_hint {σ : Type} (f : σ → OptionalPair L R → Bool × σ) (it it' : DrainFilter σ L R) (k : Nat) (qs : List (OptionalPair L R))
    (e : Repair.DrainFilter.take f k it = .ok (qs, it')) :
    qs.length + Repair.DrainFilter.sizeHint it' ≤ Repair.DrainFilter.sizeHint it := by
  induction k generalizing it qs with
  | zero => simp only [Repair.DrainFilter.take] at e; cases e; simp
  | succ k ih =>
    simp only [Repair.DrainFilter.take, bind, Except.bind, pure, Except.pure] at e
    split at e
    · cases e
    · rename_i v e1
      obtain ⟨o, it1⟩ := v
      have h1 : o.toList.length + Repair.DrainFilter.sizeHint it1 ≤ Repair.DrainFilter.sizeHint it := by
        simp only [Repair.DrainFilter.next, bind, Except.bind, pure, Except.pure] at e1
        split at e1
        · cases e1
        · rename_i v e0
          obtain ⟨o', keptL, todoL, right, st⟩ := v
          obtain ⟨m1, m2, m3⟩ := nextL_measure e0
          cases o' with
          | some x =>
            cases e1
            have := m2 rfl
            simp only [Repair.DrainFilter.sizeHint, Option.toList_some, List.length_singleton]
            cases it.reset <;> simp <;> omega
          | none =>
            cases hres : it.reset with
            | true =>
              have := repair_nextR_bound f [] right.entries st
              simp only [hres, if_true] at e1
              generalize Repair.DrainFilter.nextR f [] right.entries st = z at this e1
              obtain ⟨z1, z2, z3, z4⟩ := z
              cases e1
              simp [Repair.DrainFilter.sizeHint, hres, RawTable.len] at this m1 ⊢
              omega
            | false =>
              have := repair_nextR_bound f it.keptR it.todoR st
              simp only [hres, Bool.false_eq_true, if_false] at e1
              generalize Repair.DrainFilter.nextR f it.keptR it.todoR st = z at this e1
              obtain ⟨z1, z2, z3, z4⟩ := z
              cases e1
              simp [Repair.DrainFilter.sizeHint, hres] at this ⊢
              omega
      cases o with
      | none => cases e; simpa using h1
      | some p =>
        simp only at e
        split at e
        · cases e
        · rename_i v e2
          obtain ⟨ps, it2⟩ := v
          cases e
          have h2 := ih _ _ e2
          simp only [Option.toList_some, List.length_singleton, List.length_cons] at h1 h2 ⊢
          omega

/-- the lone right item is counted, too: the bound is 3 + 3 for 4 entries -/
example : Repair.DrainFilter.sizeHint (⟨[], demo.left.entries, demo.right, true, [], [], ()⟩ : DrainFilter Unit Nat Nat) = 6 := by
  have h1 := demo_shows.iterLeft.length_eq
  have h2 := demo_shows.iterRight.length_eq
  simp only [iterLeft, iterRight, List.length_map, RawTable.toList] at h1 h2
  simp only [Repair.DrainFilter.sizeHint, if_true, RawTable.len, h1, h2]; rfl

/-! ### drain_filter -/

/-- the closure of a `drain_filter` without the repair that does the same: right items with `P` are rejected without asking `f` -/
def skipping {σ : Type} (P : R → Bool) (f : σ → OptionalPair L R → Bool × σ) : σ → OptionalPair L R → Bool × σ
  | s, someRight r => if P r then (false, s) else f s (someRight r)
  | s, e => f s e

theorem nextL_skipping {σ : Type} (P : R → Bool) (f : σ → OptionalPair L R → Bool × σ) (kept todo : List (UInt64 × MappingPair L))
    (right : RawTable (MappingPair R)) (st : σ) :
    DrainFilter.nextL (skipping P f) kept todo right st = DrainFilter.nextL f kept todo right st := by
  induction todo generalizing kept st with
  | nil => rfl
  | cons e rest ih => simp only [DrainFilter.nextL, skipping, ih]

/-- the first loop only takes right entries out -/
theorem nextL_right {σ : Type} {f : σ → OptionalPair L R → Bool × σ} {kept todo : List (UInt64 × MappingPair L)}
    {right : RawTable (MappingPair R)} {st : σ} {o k' t' r' s'}
    (h : DrainFilter.nextL f kept todo right st = .ok (o, k', t', r', s')) : ∀ e ∈ r'.entries, e ∈ right.entries := by
  induction todo generalizing kept st with
  | nil => cases h; exact fun _ h => h
  | cons e rest ih =>
    simp only [DrainFilter.nextL] at h
    split at h
    · split at h
      · cases h
      · rename_i hrem
        split at h
        · cases h
          unfold RawTable.removeEntry at hrem
          split at hrem
          · cases hrem
          · obtain ⟨e, -, he⟩ := Option.map_eq_some_iff.mp hrem
            cases he
            exact fun x hx => List.mem_of_mem_eraseIdx ((LawfulRaw.touch_perm _ _).mem_iff.1 hx)
        · exact ih h
    · split at h
      · cases h; exact fun _ h => h
      · exact ih h

/-- `P` says which of the right entries a `drain_filter` has still to visit are paired -/
def Tells {σ : Type} (P : R → Bool) (it : DrainFilter σ L R) : Prop :=
  (∀ e ∈ it.right.entries, e.2.hash.isSome = P e.2.value) ∧ ∀ e ∈ it.todoR, e.2.hash.isSome = P e.2.value

theorem repair_nextR {σ : Type} {P : R → Bool} (f : σ → OptionalPair L R → Bool × σ) (kept : List (UInt64 × MappingPair R))
    {todo : List (UInt64 × MappingPair R)} (ht : ∀ e ∈ todo, e.2.hash.isSome = P e.2.value) (st : σ) :
    Repair.DrainFilter.nextR f kept todo st = DrainFilter.nextR (skipping P f) kept todo st ∧
      ∀ e ∈ (DrainFilter.nextR (skipping P f) kept todo st).2.2.1, e ∈ todo := by
  induction todo generalizing kept st with
  | nil => exact ⟨rfl, fun _ h => h⟩
  | cons e rest ih =>
    have ih := fun k s => ih k (fun x hx => ht x (List.mem_cons_of_mem _ hx)) s
    have he := ht e (by simp)
    simp only [Repair.DrainFilter.nextR, DrainFilter.nextR, skipping, he]
    cases P e.2.value with
    | true => exact ⟨(ih _ _).1, fun x hx => List.mem_cons_of_mem _ ((ih _ _).2 x hx)⟩
    | false =>
      simp only [Bool.false_eq_true, if_false]
      cases hf : f st (someRight e.2.value) with
      | mk b s =>
        cases b
        · exact ⟨(ih _ _).1, fun x hx => List.mem_cons_of_mem _ ((ih _ _).2 x hx)⟩
        · exact ⟨rfl, fun x hx => List.mem_cons_of_mem _ hx⟩

theorem repair_next {σ : Type} {P : R → Bool} (f : σ → OptionalPair L R → Bool × σ) {it : DrainFilter σ L R} (ht : Tells P it) :
    Repair.DrainFilter.next f it = DrainFilter.next (skipping P f) it ∧
      ∀ o it', DrainFilter.next (skipping P f) it = .ok (o, it') → Tells P it' := by
  unfold Repair.DrainFilter.next DrainFilter.next
  rw [nextL_skipping]
  cases hn : DrainFilter.nextL f it.keptL it.todoL it.right it.st with
  | error e => exact ⟨rfl, fun _ _ h => by cases h⟩
  | ok v =>
    obtain ⟨o, k', t', r', s'⟩ := v
    have hr := nextL_right hn
    have hr' : ∀ e ∈ r'.entries, e.2.hash.isSome = P e.2.value := fun e he => ht.1 e (hr e he)
    cases o with
    | some o => exact ⟨rfl, fun _ _ h => by cases h; exact ⟨hr', ht.2⟩⟩
    | none =>
      simp only [bind, Except.bind, pure, Except.pure]
      cases it.reset with
      | true =>
        obtain ⟨e1, e2⟩ := repair_nextR f [] hr' s'
        simp only [if_true, e1, true_and]
        intro o it' h
        cases h
        exact ⟨hr', fun e he => hr' e (e2 e he)⟩
      | false =>
        obtain ⟨e1, e2⟩ := repair_nextR f it.keptR ht.2 s'
        simp only [Bool.false_eq_true, if_false, e1, true_and]
        intro o it' h
        cases h
        exact ⟨hr', fun e he => ht.2 e (e2 e he)⟩

theorem repair_take {σ : Type} {P : R → Bool} (f : σ → OptionalPair L R → Bool × σ) (n : Nat) {it : DrainFilter σ L R} (ht : Tells P it) :
    Repair.DrainFilter.take f n it = DrainFilter.take (skipping P f) n it ∧
      ∀ ps it', DrainFilter.take (skipping P f) n it = .ok (ps, it') → Tells P it' := by
  induction n generalizing it with
  | zero => exact ⟨rfl, fun _ _ h => by cases h; exact ht⟩
  | succ n ih =>
    obtain ⟨e1, e2⟩ := repair_next f ht
    simp only [Repair.DrainFilter.take, DrainFilter.take, e1]
    cases hn : DrainFilter.next (skipping P f) it with
    | error e => exact ⟨rfl, fun _ _ h => by cases h⟩
    | ok v =>
      obtain ⟨o, it1⟩ := v
      have h1 := e2 _ _ hn
      cases o with
      | none => exact ⟨rfl, fun _ _ h => by cases h; exact h1⟩
      | some o =>
        obtain ⟨a1, a2⟩ := ih h1
        simp only [bind, Except.bind, a1, pure, Except.pure, true_and]
        cases hk : DrainFilter.take (skipping P f) n it1 with
        | error e => exact fun _ _ h => by cases h
        | ok v => exact fun _ _ h => by cases h; exact a2 _ _ hk

theorem repair_drainFilterTake {σ : Type} {P : R → Bool} (f : σ → OptionalPair L R → Bool × σ) (s : σ) (n : Nat)
    (ht : ∀ e ∈ m.right.entries, e.2.hash.isSome = P e.2.value) :
    Repair.drainFilterTake m f s n = m.drainFilterTake (skipping P f) s n := by
  have h0 : Tells P (⟨[], m.left.entries, m.right, true, [], [], s⟩ : DrainFilter σ L R) := ⟨ht, by simp⟩
  obtain ⟨e1, e2⟩ := repair_take f n h0
  simp only [Repair.drainFilterTake, drainFilterTake, e1]
  cases hk : DrainFilter.take (skipping P f) n ⟨[], m.left.entries, m.right, true, [], [], s⟩ with
  | error e => rfl
  | ok v => simp only [bind, Except.bind, (repair_take f _ (e2 _ _ hk)).1]

/-- which right items are paired -/
def pairedIn (c : List (OptionalPair L R)) (r : R) : Bool := c.any fun e => isPair e && hasR r e

theorem pairedIn_mem (ho : OneToOne c) {e : OptionalPair L R} (he : e ∈ c) {r : R} (hr : rightOf e = some r) : pairedIn c r = isPair e := by
  have hh : hasR r e = true := by cases e <;> simp_all [rightOf, hasR]
  cases hp : isPair e with
  | true => exact List.any_eq_true.2 ⟨e, he, by simp [hp, hh]⟩
  | false =>
    rw [pairedIn, List.any_eq_false]
    intro x hx hb
    obtain ⟨b1, b2⟩ := Bool.and_eq_true_iff.1 hb
    have hd : x = e ∨ hasR r x = false := by
      obtain ⟨s, t, rfl⟩ := List.append_of_mem he
      obtain ⟨-, p2, p3⟩ := List.pairwise_append.1 ho.1
      rcases List.mem_append.1 hx with hx | hx
      · exact .inr ((p3 x hx e (by simp)).symm.2 r hr)
      · rcases List.mem_cons.1 hx with rfl | hx
        · exact .inl rfl
        · exact .inr (((List.pairwise_cons.1 p2).1 x hx).2 r hr)
    rcases hd with rfl | hd
    · rw [hp] at b1; cases b1
    · rw [hd] at b2; cases b2

theorem pairedIn_tells (h : Repr m c) (ho : OneToOne c) : ∀ e ∈ m.right.entries, e.2.hash.isSome = pairedIn c e.2.value := by
  obtain ⟨ps, hr, hp⟩ := h
  intro e he
  obtain ⟨q, hq, hx⟩ := List.mem_filterMap.1 (hr.right.mem_iff.1 he)
  have hm : q.e ∈ c := hp.mem_iff.1 (List.mem_map_of_mem hq)
  obtain ⟨x, i⟩ := q
  cases x with
  | neither => cases hx
  | someLeft a => cases hx
  | someRight b => cases hx; rw [pairedIn_mem ho hm (r := b) rfl]; rfl
  | someBoth a b => cases hx; rw [pairedIn_mem ho hm (r := b) rfl]; rfl

theorem split_skip {σ α : Type} (g f : σ → α → Bool × σ) (P : α → Bool) {d : List α}
    (h1 : ∀ a ∈ d, P a = true → ∀ s, g s a = (false, s)) (h2 : ∀ a ∈ d, P a = false → ∀ s, g s a = f s a) (s : σ) :
    (split g d s).1 = (split f (d.filter fun a => !P a) s).1 ∧
      (split g d s).2.1.Perm ((split f (d.filter fun a => !P a) s).2.1 ++ d.filter P) ∧
      (split g d s).2.2 = (split f (d.filter fun a => !P a) s).2.2 := by
  induction d generalizing s with
  | nil => exact ⟨rfl, .refl _, rfl⟩
  | cons a d ih =>
    have ih := fun s => ih (fun x hx => h1 x (List.mem_cons_of_mem _ hx)) (fun x hx => h2 x (List.mem_cons_of_mem _ hx)) s
    cases hP : P a with
    | true =>
      have hg := h1 a (by simp) hP s
      obtain ⟨i1, i2, i3⟩ := ih s
      simp only [split, hg, List.filter_cons, hP, Bool.not_true, Bool.false_eq_true, if_false, if_true]
      exact ⟨i1, (i2.cons a).trans List.perm_middle.symm, i3⟩
    | false =>
      have hg := h2 a (by simp) hP s
      simp only [split, hg, List.filter_cons, hP, Bool.not_false, Bool.false_eq_true, if_false, if_true]
      cases hf : f s a with
      | mk b s' =>
        obtain ⟨i1, i2, i3⟩ := ih s'
        cases b
        · exact ⟨i1, i2.cons a, i3⟩
        · exact ⟨congrArg (a :: ·) i1, i2, i3⟩

theorem split_congr' {σ α : Type} {g f : σ → α → Bool × σ} {d : List α} (h : ∀ a ∈ d, ∀ s, g s a = f s a) (s : σ) :
    split g d s = split f d s := by
  induction d generalizing s with
  | nil => rfl
  | cons a d ih =>
    have ih := fun s => ih (fun x hx => h x (List.mem_cons_of_mem _ hx)) s
    simp only [split, h a (by simp) s, ih]

/-- the right entries the second loop visits: the lone ones, and those of the pairs that were kept -/
theorem second_pass {d2 k us : List (OptionalPair L R)} (h : (d2 ++ k.filter fun e => (rightOf e).isNone).Perm (k ++ us))
    (h2 : ∀ e ∈ d2, (rightOf e).isSome = true) (hk : ∀ e ∈ k, (leftOf e).isSome = true)
    (hu : ∀ u ∈ us, (rightOf u).isSome = true ∧ isPair u = false) :
    (d2.filter fun e => !isPair e).Perm us ∧ (d2.filter isPair).Perm (k.filter fun e => (rightOf e).isSome) := by
  have a1 := h.filter fun e => (rightOf e).isSome && !isPair e
  have a2 := h.filter fun e => (rightOf e).isSome && isPair e
  rw [List.filter_append, List.filter_append, List.filter_filter] at a1 a2
  have b1 : (k.filter fun a => (rightOf a).isSome && !isPair a && (rightOf a).isNone) = [] :=
    List.filter_eq_nil_iff.2 fun e _ => by cases rightOf e <;> simp
  have b2 : (k.filter fun a => (rightOf a).isSome && isPair a && (rightOf a).isNone) = [] :=
    List.filter_eq_nil_iff.2 fun e _ => by cases rightOf e <;> simp
  have b3 : (k.filter fun e => (rightOf e).isSome && !isPair e) = [] :=
    List.filter_eq_nil_iff.2 fun e he => by have := hk e he; cases e <;> simp_all [leftOf, rightOf, isPair]
  have b4 : (us.filter fun e => (rightOf e).isSome && isPair e) = [] := List.filter_eq_nil_iff.2 fun u h' => by simp [hu u h']
  have b5 : (us.filter fun e => (rightOf e).isSome && !isPair e) = us := List.filter_eq_self.2 fun u h' => by simp [hu u h']
  rw [List.filter_congr (l := d2) (q := fun e => !isPair e) (fun e he => by simp [h2 e he]), b1, b3, b5, List.append_nil, List.nil_append] at a1
  rw [List.filter_congr (l := d2) (q := isPair) (fun e he => by simp [h2 e he]), b2, b4,
    List.filter_congr (l := k) (q := fun e => (rightOf e).isSome) (fun e he => by have := hk e he; cases e <;> simp_all [leftOf, rightOf, isPair]),
    List.append_nil, List.append_nil] at a2
  exact ⟨a1, a2⟩

theorem drainFilter_repair {σ : Type} (hr : Repr m c) (f : σ → OptionalPair L R → Bool × σ) (s : σ) (n : Nat) :
    ∃ (d : List (OptionalPair L R)) (m' : PartialMap L R), d.Perm c ∧
      Repair.drainFilterTake m f s n = .ok ((split f d s).1.take n, (split f d s).2.2, m') ∧ Repr m' (split f d s).2.1 := by
  have ho := hr.oneToOne
  rw [repair_drainFilterTake f s n (pairedIn_tells hr ho)]
  obtain ⟨d1, us, d2, m', h1, h2, h3, h4, h5, h6, -, -, -, -, -, h7⟩ :=
    drainFilterTake_refines hr (skipping (pairedIn c) f) s n
  have hm1 : ∀ e ∈ d1, e ∈ c := fun e he => h1.mem_iff.1 (List.mem_append_left _ he)
  have s1 : split (skipping (pairedIn c) f) d1 s = split f d1 s :=
    split_congr' (fun e he s => by
      have := h2 e he
      cases e <;> first | rfl | cases this) _
  rw [s1] at h4 h6 h7
  have hm2 : ∀ e ∈ d2, e ∈ c := fun e he => by
    rcases List.mem_append.1 (h4.mem_iff.1 (List.mem_append_left _ he)) with hm | hm
    · exact hm1 e ((split_perm _ d1 _).mem_iff.2 (List.mem_append_right _ hm))
    · exact h1.mem_iff.1 (List.mem_append_right _ hm)
  have s2 := split_skip (fun s e => skipping (pairedIn c) f s (asRight e)) f isPair (d := d2)
    (fun e he hp s => by
      cases e with
      | someBoth a b => simp only [asRight, skipping, pairedIn_mem ho (hm2 _ he) (r := b) rfl, hp, if_true]
      | _ => cases hp)
    (fun e he hp s => by
      have h5' := h5 e he
      cases e with
      | someRight b => simp only [asRight, skipping, pairedIn_mem ho (hm2 _ he) (r := b) rfl, hp, Bool.false_eq_true, if_false]
      | someBoth a b => cases hp
      | _ => cases h5') (split f d1 s).2.2
  obtain ⟨t1, t2, t3⟩ := s2
  have h7 := h7 fun s l r hm => by simp [skipping, pairedIn_mem ho hm (r := r) rfl, isPair]
  have e1 := split_append f d1 (d2.filter fun e => !isPair e) s
  have k1 : ∀ e ∈ (split f d1 s).2.1, (leftOf e).isSome = true := fun e he =>
    h2 e ((split_perm _ d1 _).mem_iff.2 (List.mem_append_right _ he))
  have husR : ∀ u ∈ us, (rightOf u).isSome = true ∧ isPair u = false := by
    intro u hu
    have hl := h3 u hu
    have hne : u ≠ neither := fun e => ho.2 (e ▸ h1.mem_iff.1 (List.mem_append_right _ hu))
    cases u <;> simp_all [leftOf, rightOf, isPair]
  obtain ⟨hlone, hpair⟩ := second_pass h4 h5 k1 husR
  refine ⟨d1 ++ d2.filter fun e => !isPair e, m', (hlone.append_left _).trans h1, ?_, h7.perm ?_⟩
  · have a1 := congrArg Prod.fst e1
    have a2 := congrArg (fun x => x.2.2) e1
    have t1' : ((split f (d2.filter fun e => !isPair e) (split f d1 s).2.2).1.map asRight) =
        (split f (d2.filter fun e => !isPair e) (split f d1 s).2.2).1 := by
      rw [List.map_congr_left (g := id), List.map_id]
      intro e he
      have := (List.mem_filter.1 ((split_perm _ _ _).mem_iff.2 (List.mem_append_left _ he)))
      have h5' := h5 e this.1
      cases e <;> simp_all [asRight, isPair, rightOf]
    rw [h6, t1, t3, t1']
    dsimp only at a1 a2
    rw [a1, a2]
  · have a1 := congrArg (fun x => x.2.1) e1
    dsimp only at a1
    rw [a1]
    refine (t2.append_right _).trans ?_
    refine ((hpair.append_left _).append_right _).trans ?_
    rw [List.append_assoc]
    refine List.perm_append_comm.trans (.append_right _ ?_)
    have := List.filter_append_perm (fun e => (rightOf e).isSome) (split f d1 s).2.1
    refine .trans (.of_eq ?_) this
    congr 2
    funext e
    cases rightOf e <;> rfl

/-- C134, for C54: with the check at the start of the second loop, `drain_filter` runs the closure once over all entries, in some order `d` (the log of the
calls shows it), yields those accepted, and removes just these, wherever the iterator is dropped. -/
theorem C134_drain_filter {σ : Type} (h : Reachable m) (hc : Shows m c) (f : σ → OptionalPair L R → Bool × σ) (s : σ) (n : Nat) :
    ∃ (d : List (OptionalPair L R)) (m' : PartialMap L R), d.Perm c ∧
      Repair.drainFilterTake m (logging f) ([], s) n = .ok ((split f d s).1.take n, (d, (split f d s).2.2), m') ∧
      UsableAs m' (split f d s).2.1 := by
  obtain ⟨d, m', hp, e, h'⟩ := drainFilter_repair (h.repr_of_shows hc) (logging f) ([], s) n
  have e2 := split_logging f id d [] s
  simp only [id, List.map_id', List.map_id_fun, List.nil_append] at e2
  rw [show split (logging f) d ([], s) = split (fun s a => logging f s a) d ([], s) from rfl, e2] at e h'
  exact ⟨d, m', hp, e, h'.usable⟩

/-- a closure that accepts whatever has no left item takes the lone right item 30, and no pair is torn apart -/
example : ∃ log m', Repair.drainFilterTake demo (logging fun (_ : Unit) e => ((leftOf e).isNone, ())) ([], ()) 9 = .ok ([someRight 30], (log, ()), m') ∧
    log.Perm [someRight 30, someLeft 3, someBoth 2 20, someBoth 1 10] ∧ ∃ c', Shows m' c' ∧ c'.Perm [someLeft 3, someBoth 2 20, someBoth 1 10] := by
  obtain ⟨d, m', hp, e, h⟩ := C134_drain_filter demo_reachable demo_shows (fun (_ : Unit) e => ((leftOf e).isNone, ())) () 9
  have := CycleSpec.split_pure (f := fun (_ : Unit) (e : OptionalPair Nat Nat) => ((leftOf e).isNone, ())) (g := fun e => (leftOf e).isNone)
    (fun _ _ => rfl) d ()
  refine ⟨d, m', ?_, hp, _, h.1, ?_⟩
  · have h1 : (d.filter fun e => (leftOf e).isNone) = [someRight 30] := List.perm_singleton.1 (hp.filter fun e => (leftOf e).isNone)
    rw [e, this.1, h1]; rfl
  · rw [this.2]; exact hp.filter _

/-! ### the retains -/

theorem split_not {σ α : Type} (f : σ → α → Bool × σ) (d : List α) (s : σ) :
    split (fun s a => (!(f s a).1, (f s a).2)) d s = ((split f d s).2.1, (split f d s).1, (split f d s).2.2) := by
  induction d generalizing s with
  | nil => rfl
  | cons a d ih =>
    cases hf : f s a with
    | mk b s' =>
      cases b <;> simp only [split, hf, ih, Bool.not_true, Bool.not_false]

theorem retainPaired_repair {σ : Type} (h : Repr m c) (f : σ → L → R → Bool × σ) (s : σ) :
    ∃ (d : List (L × R)) (m' : PartialMap L R), d.Perm (c.filterMap pairOf) ∧
      Repair.retainPaired m f s = .ok ((split (fun s p => f s p.1 p.2) d s).2.2, m') ∧
      Repr m' ((split (fun s p => f s p.1 p.2) d s).1.map (fun p => someBoth p.1 p.2) ++ c.filter fun e => !isPair e) := by
  obtain ⟨d, m', hp, e, h', -⟩ := retainPaired_refines h (fun s l r => (!(f s l r).1, (f s l r).2)) s
  rw [split_not (fun s (p : L × R) => f s p.1 p.2) d s] at e h'
  exact ⟨d, m', hp, e, h'⟩

theorem retainUnpaired_repair {σ : Type} (h : Repr m c) (f : σ → OptionalPair L R → Bool × σ) (s : σ) :
    ∃ (d : List (OptionalPair L R)) (m' : PartialMap L R), d.Perm (c.filter fun e => !isPair e) ∧
      Repair.retainUnpaired m f s = .ok ((split f d s).2.2, m') ∧ Repr m' ((split f d s).1 ++ c.filter isPair) := by
  obtain ⟨d, m', hp, e, h', -⟩ := retainUnpaired_refines h (fun s e => (!(f s e).1, (f s e).2)) s
  rw [split_not f d s] at e h'
  exact ⟨d, m', hp, e, h'⟩

theorem retain_repair {σ : Type} (hr : Repr m c) (f : σ → OptionalPair L R → Bool × σ) (s : σ) :
    ∃ (d : List (OptionalPair L R)) (m' : PartialMap L R), d.Perm c ∧
      Repair.retain m f s = .ok ((split f d s).2.2, m') ∧ Repr m' (split f d s).1 := by
  obtain ⟨d, m1, hp, e, h'⟩ := retainPaired_repair hr (fun s l r => f s (someBoth l r)) s
  have hm := split_mapped f (fun p : L × R => (someBoth p.1 p.2 : OptionalPair L R)) d s
  generalize hA : split (fun s (p : L × R) => f s (someBoth p.1 p.2)) d s = A at e h' hm
  obtain ⟨d2, m2, hp2, e2, h2⟩ := retainUnpaired_repair h' f A.2.2
  have k1 : (A.1.map (fun p => (someBoth p.1 p.2 : OptionalPair L R))).filter (fun e => !isPair e) = [] := by
    rw [List.filter_eq_nil_iff]; intro x hx; obtain ⟨p, _, rfl⟩ := List.mem_map.1 hx; simp [isPair]
  have k2 : (A.1.map (fun p => (someBoth p.1 p.2 : OptionalPair L R))).filter isPair = A.1.map (fun p => someBoth p.1 p.2) := by
    rw [List.filter_eq_self]; intro x hx; obtain ⟨p, _, rfl⟩ := List.mem_map.1 hx; rfl
  have k3 : (c.filter fun e => !isPair e).filter isPair = [] := by
    rw [List.filter_eq_nil_iff]; intro x hx; simpa using (List.mem_filter.1 hx).2
  have k4 : (c.filter fun e => !isPair e).filter (fun e => !isPair e) = c.filter fun e => !isPair e := by
    rw [List.filter_eq_self]; intro x hx; exact (List.mem_filter.1 hx).2
  rw [List.filter_append, k1, List.nil_append, k4] at hp2
  rw [List.filter_append, k2, k3, List.append_nil] at h2
  have ha := split_append f (d.map fun p => (someBoth p.1 p.2 : OptionalPair L R)) d2 s
  rw [hm] at ha
  refine ⟨d.map (fun p => someBoth p.1 p.2) ++ d2, m2, ?_, ?_, ?_⟩
  · refine .trans (.append (hp.map _) hp2) (.trans ?_ (List.filter_append_perm isPair c))
    refine .append_right _ ?_
    rw [List.map_filterMap, ← List.filterMap_eq_filter]
    refine .of_eq (congrArg (List.filterMap · c) (funext fun x => ?_))
    cases x <;> rfl
  · rw [Repair.retain, e]
    simp only [bind, Except.bind, e2, ha]
  · refine h2.perm ?_
    rw [ha]
    exact List.perm_append_comm

/-- C134, for C55: `retain_paired`, `retain_unpaired` and `retain` run the closure once over the pairs, the lone items, all entries, in some
order, and *keep* what it accepts (`split` returns the accepted items, the rejected items and the last state). -/
theorem C134_retain (h : Reachable m) (hc : Shows m c) {σ : Type} (s : σ) :
    (∀ f : σ → L → R → Bool × σ, ∃ (d : List (L × R)) (m' : PartialMap L R), d.Perm (c.filterMap pairOf) ∧
      Repair.retainPaired m f s = .ok ((split (fun s p => f s p.1 p.2) d s).2.2, m') ∧
      UsableAs m' ((split (fun s p => f s p.1 p.2) d s).1.map (fun p => someBoth p.1 p.2) ++ c.filter fun e => !isPair e)) ∧
    (∀ f : σ → OptionalPair L R → Bool × σ, ∃ (d : List (OptionalPair L R)) (m' : PartialMap L R), d.Perm (c.filter fun e => !isPair e) ∧
      Repair.retainUnpaired m f s = .ok ((split f d s).2.2, m') ∧ UsableAs m' ((split f d s).1 ++ c.filter isPair)) ∧
    (∀ f : σ → OptionalPair L R → Bool × σ, ∃ (d : List (OptionalPair L R)) (m' : PartialMap L R), d.Perm c ∧
      Repair.retain m f s = .ok ((split f d s).2.2, m') ∧ UsableAs m' (split f d s).1) := by
  have hr := h.repr_of_shows hc
  refine ⟨fun f => ?_, fun f => ?_, fun f => ?_⟩
  · obtain ⟨d, m', hp, e, h'⟩ := retainPaired_repair hr f s
    exact ⟨d, m', hp, e, h'.usable⟩
  · obtain ⟨d, m', hp, e, h'⟩ := retainUnpaired_repair hr f s
    exact ⟨d, m', hp, e, h'.usable⟩
  · obtain ⟨d, m', hp, e, h'⟩ := retain_repair hr f s
    exact ⟨d, m', hp, e, h'.usable⟩

/-- keeping the entries with a left item, and the pairs with an even left item -/
example : ∃ m', Repair.retain demo (fun (_ : Unit) e => ((leftOf e).isSome, ())) () = .ok ((), m') ∧ ∃ c', Shows m' c' ∧
    c'.Perm [someLeft 3, someBoth 2 20, someBoth 1 10] := by
  obtain ⟨d, m', hp, e, h⟩ := (C134_retain demo_reachable demo_shows ()).2.2 fun (_ : Unit) e => ((leftOf e).isSome, ())
  have := CycleSpec.split_pure (f := fun (_ : Unit) (e : OptionalPair Nat Nat) => ((leftOf e).isSome, ())) (g := fun e => (leftOf e).isSome)
    (fun _ _ => rfl) d ()
  exact ⟨m', e, _, h.1, by rw [this.1]; exact hp.filter _⟩

/-! ### equality -/

theorem sub_back {T : Type} [BEq T] [EquivBEq T] {xs ys : List T} (h : xs.Pairwise fun a b => (a == b) = false)
    (hs : ∀ x ∈ xs, ∃ y ∈ ys, (x == y) = true) (hl : ys.length ≤ xs.length) : ∀ y ∈ ys, ∃ x ∈ xs, (y == x) = true := by
  intro y hy
  refine Classical.byContradiction fun hn => ?_
  have hsub : xs.length ≤ (ys.filter fun z => !(y == z)).length := length_le_of_sub h fun x hx => by
    obtain ⟨z, hz, hxz⟩ := hs x hx
    refine ⟨z, List.mem_filter.2 ⟨hz, ?_⟩, hxz⟩
    cases hyz : y == z with
    | false => rfl
    | true => exact absurd ⟨x, hx, BEq.trans hyz (BEq.symm hxz)⟩ hn
  have : (ys.filter fun z => !(y == z)).length < ys.length := by
    have := List.length_filter_lt_length_iff_exists (p := fun z => !(y == z)) (l := ys)
    exact this.2 ⟨y, hy, by simp⟩
  omega

theorem rights_apart (h : OneToOne c) : (c.filterMap rightOf).Pairwise fun a b => (a == b) = false := by
  rw [List.pairwise_filterMap]
  refine h.1.imp fun {x y} hd a ha b hb => ?_
  have := hd.2 a ha
  cases y <;> simp_all [rightOf, hasR]

theorem Sub.rights {d : List (OptionalPair L R)} (h : Sub c d) : ∀ x ∈ c.filterMap rightOf, ∃ y ∈ d.filterMap rightOf, (x == y) = true := by
  intro x hx
  obtain ⟨e, he, hex⟩ := List.mem_filterMap.1 hx
  obtain ⟨e', he', hs⟩ := h e he
  cases e <;> cases e' <;> simp only [Same] at hs <;> simp only [rightOf, Option.some.injEq, reduceCtorEq] at hex
  · subst hex; exact ⟨_, List.mem_filterMap.2 ⟨_, he', rfl⟩, hs⟩
  · subst hex; exact ⟨_, List.mem_filterMap.2 ⟨_, he', rfl⟩, hs.2⟩

theorem repair_eqEntry {m' : PartialMap L R} {c' : List (OptionalPair L R)} (hc' : Shows m' c') {e : OptionalPair L R} (hne : e ≠ neither) :
    ∃ b, Repair.eqEntry m' e = .ok b ∧ (b = true ↔ ∃ e' ∈ c', Same e e') := by
  cases e with
  | neither => exact absurd rfl hne
  | someBoth l r =>
    refine ⟨_, rfl, ?_⟩
    rw [hc'.arePaired, hasPair, List.any_eq_true]
    refine exists_congr fun e' => and_congr_right fun _ => ?_
    cases e' <;> simp [hasL, hasR, Same]
  | someLeft l =>
    refine ⟨_, rfl, ?_⟩
    rw [hc'.containsLeft, hc'.isLeftPaired, Bool.and_eq_true, List.any_eq_true, Bool.not_eq_true', List.any_eq_false]
    constructor
    · rintro ⟨⟨e', he', hl⟩, hn⟩
      have := hn e' he'
      rcases hasL_cases hl with ⟨a, rfl, ha⟩ | ⟨a, b, rfl, ha⟩
      · exact ⟨_, he', ha⟩
      · simp [isPair, hl] at this
    · rintro ⟨e', he', hs⟩
      cases e' <;> simp only [Same] at hs
      refine ⟨⟨_, he', hs⟩, fun x hx hp => ?_⟩
      rw [Bool.and_eq_true] at hp
      cases hc'.oneToOne.uniqueL he' hx (l := l) hs hp.2
      cases hp.1
  | someRight r =>
    refine ⟨_, rfl, ?_⟩
    rw [hc'.containsRight, hc'.isRightPaired, Bool.and_eq_true, List.any_eq_true, Bool.not_eq_true', List.any_eq_false]
    constructor
    · rintro ⟨⟨e', he', hl⟩, hn⟩
      have := hn e' he'
      rcases hasR_cases hl with ⟨a, rfl, ha⟩ | ⟨a, b, rfl, ha⟩
      · exact ⟨_, he', ha⟩
      · simp [isPair, hl] at this
    · rintro ⟨e', he', hs⟩
      cases e' <;> simp only [Same] at hs
      refine ⟨⟨_, he', hs⟩, fun x hx hp => ?_⟩
      rw [Bool.and_eq_true] at hp
      cases hc'.oneToOne.uniqueR he' hx (r := r) hs hp.2
      cases hp.1

theorem repair_eqAll {m' : PartialMap L R} {c' : List (OptionalPair L R)} (hc' : Shows m' c') {d : List (OptionalPair L R)}
    (hne : neither ∉ d) : ∃ b, Repair.eqAll m' d = .ok b ∧ (b = true ↔ ∀ e ∈ d, ∃ e' ∈ c', Same e e') := by
  induction d with
  | nil => exact ⟨true, rfl, by simp⟩
  | cons e d ih =>
    obtain ⟨b, h1, h2⟩ := repair_eqEntry hc' (e := e) (fun he => hne (he ▸ by simp))
    obtain ⟨b', h3, h4⟩ := ih fun hm => hne (List.mem_cons_of_mem _ hm)
    cases b with
    | false =>
      refine ⟨false, by rw [Repair.eqAll, h1]; rfl, ?_⟩
      simp only [Bool.false_eq_true, false_iff]
      intro H; exact absurd (h2.2 (H e (by simp))) (by simp)
    | true =>
      refine ⟨b', by rw [Repair.eqAll, h1]; exact h3, ?_⟩
      rw [h4, List.forall_mem_cons]
      exact ⟨fun H => ⟨h2.1 rfl, H⟩, fun H => H.2⟩

/-- C134, for C56: `==` of two maps is the equality of their pairs and lone items, up to `==` of the items. -/
theorem C134_eq {m' : PartialMap L R} {c' : List (OptionalPair L R)} (h : Reachable m) (hc : Shows m c) (hc' : Shows m' c') :
    ∃ b, Repair.eq m m' = .ok b ∧ (b = true ↔ (∀ e ∈ c, ∃ e' ∈ c', Same e e') ∧ (∀ e' ∈ c', ∃ e ∈ c, Same e' e)) := by
  have hp := repair_iterList (h.repr_of_shows hc)
  obtain ⟨b, h1, h2⟩ := repair_eqAll hc' (d := Repair.iterList m) (fun hm => hc.oneToOne.2 (hp.mem_iff.1 hm))
  have h2 : b = true ↔ ∀ e ∈ c, ∃ e' ∈ c', Same e e' := h2.trans
    ⟨fun H e he => H e (hp.mem_iff.2 he), fun H e he => H e (hp.mem_iff.1 he)⟩
  by_cases hl : m.lenLeft = m'.lenLeft ∧ m.lenRight = m'.lenRight
  · refine ⟨b, by rw [Repair.eq, hl.1, hl.2]; simpa using h1, h2.trans ⟨fun H => ⟨H, ?_⟩, fun H => H.1⟩⟩
    rw [hc.lenLeft, hc'.lenLeft, hc.lenRight, hc'.lenRight] at hl
    have bL := sub_back (lefts_apart hc.oneToOne) (Sub.lefts H) (by omega)
    have bR := sub_back (rights_apart hc.oneToOne) (Sub.rights H) (by omega)
    intro e' he'
    -- the entry of `c` with an item of `e'`
    have key : ∃ e ∈ c, (∃ l, hasL l e = true ∧ hasL l e' = true) ∨ (∃ r, hasR r e = true ∧ hasR r e' = true) := by
      cases e' with
      | neither => exact absurd he' hc'.oneToOne.2
      | someRight r =>
        obtain ⟨x, hx, hrx⟩ := bR r (List.mem_filterMap.2 ⟨_, he', rfl⟩)
        obtain ⟨e, he, hxe⟩ := List.mem_filterMap.1 hx
        exact ⟨e, he, .inr ⟨r, by rw [hasR_eq hxe]; exact hrx, by simp [hasR]⟩⟩
      | someLeft l =>
        obtain ⟨x, hx, hrx⟩ := bL l (List.mem_filterMap.2 ⟨_, he', rfl⟩)
        obtain ⟨e, he, hxe⟩ := List.mem_filterMap.1 hx
        exact ⟨e, he, .inl ⟨l, by rw [hasL_eq hxe]; exact hrx, by simp [hasL]⟩⟩
      | someBoth l r =>
        obtain ⟨x, hx, hrx⟩ := bL l (List.mem_filterMap.2 ⟨_, he', rfl⟩)
        obtain ⟨e, he, hxe⟩ := List.mem_filterMap.1 hx
        exact ⟨e, he, .inl ⟨l, by rw [hasL_eq hxe]; exact hrx, by simp [hasL]⟩⟩
    obtain ⟨e, he, hk⟩ := key
    obtain ⟨e2, he2, hs⟩ := H e he
    have : e2 = e' := by
      rcases hk with ⟨l, k1, k2⟩ | ⟨r, k1, k2⟩
      · exact hc'.oneToOne.uniqueL he2 he' (by rw [← hs.hasL]; exact k1) k2
      · exact hc'.oneToOne.uniqueR he2 he' (by rw [← hs.hasR]; exact k1) k2
    exact ⟨e, he, this ▸ hs.symm⟩
  · refine ⟨false, ?_, ?_⟩
    · rw [Repair.eq, if_pos]
      simpa [Classical.or_iff_not_imp_left] using hl
    · simp only [Bool.false_eq_true, false_iff]
      rintro ⟨s1, s2⟩
      refine hl ⟨?_, ?_⟩
      · rw [hc.lenLeft, hc'.lenLeft]
        exact Nat.le_antisymm (length_le_of_sub (lefts_apart hc.oneToOne) (Sub.lefts s1))
          (length_le_of_sub (lefts_apart hc'.oneToOne) (Sub.lefts s2))
      · rw [hc.lenRight, hc'.lenRight]
        exact Nat.le_antisymm (length_le_of_sub (rights_apart hc.oneToOne) (Sub.rights s1))
          (length_le_of_sub (rights_apart hc'.oneToOne) (Sub.rights s2))

/-- `demo` against the map without the lone item 30: not equal (`==` as it is says they are, as the numbers of left items agree) -/
example : ∃ m' : PartialMap Nat Nat, Shows m' [someLeft 3, someBoth 2 20, someBoth 1 10] ∧ Repair.eq demo m' = .ok false ∧
    Repair.eq demo demo = .ok true := by
  obtain ⟨m'', e2, h2⟩ := extend_refines (withHasher_repr (constHash : BuildHasher Nat Nat)) [someBoth 1 10, someBoth 2 20, someLeft 3]
  have h2 : Shows m'' [someLeft 3, someBoth 2 20, someBoth 1 10] := h2.1.shows
  refine ⟨m'', h2, ?_, ?_⟩
  · obtain ⟨b, e3, hb⟩ := C134_eq demo_reachable demo_shows h2
    cases b with
    | false => exact e3
    | true => exact absurd ((hb.1 rfl).1 (someRight 30) (by simp)) (by simp [Same])
  · obtain ⟨b, e3, hb⟩ := C134_eq demo_reachable demo_shows demo_shows
    rw [hb.2 ⟨fun e he => ⟨e, he, .refl e⟩, fun e he => ⟨e, he, .refl e⟩⟩] at e3
    exact e3

/-! ### clear -/

/-- C134, for C122: `clear` with the guard drops the items as the drop of the map does (C132), and however it ends, the map is empty then. -/
theorem C134_clear (m : PartialMap L R) (d : τ → L ⊕ R → Bool × τ) (t : τ) :
    ∃ (e : Ending) (t' : τ) (m' : PartialMap L R), Repair.clearD m d t = (e, t', m') ∧ m.dropMap d t = (e, t') ∧ UsableAs m' [] :=
  ⟨_, _, _, rfl, rfl, (clear_refines m).usable⟩

/-- a destructor that panics the first time it is run -/
example : ∃ (e : Ending) (t' : Nat) (m' : PartialMap Nat Nat), Repair.clearD demo (fun (t : Nat) _ => (t == 0, t + 1)) 0 = (e, t', m') ∧
    e = .panicked ∧ t' = 4 ∧ Shows m' [] := by
  obtain ⟨e, t', m', h1, h2, h3⟩ := C134_clear demo (fun (t : Nat) (_ : Nat ⊕ Nat) => (t == 0, t + 1)) 0
  have : (demo.dropMap (fun (t : Nat) (_ : Nat ⊕ Nat) => (t == 0, t + 1)) 0) = (.panicked, 4) := by
    have hl := demo_shows.iterLeft.length_eq
    have hr := demo_shows.iterRight.length_eq
    simp only [iterLeft, iterRight, List.length_map] at hl hr
    match h1 : demo.left.toList, hl, h2 : demo.right.toList, hr with
    | [_, _, _], _, [_, _, _], _ => simp [dropMap, h1, h2, dropTwo, dropUntil]
  rw [this] at h2; cases h2
  exact ⟨_, _, m', h1, rfl, rfl, h3.1⟩

end Verif.PartialMap
