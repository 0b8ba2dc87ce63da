import Verif.PartialMap.Bulk
import Verif.CycleMap.Forget
/-! Iterators of `PartialCycleMap` that are leaked with `mem::forget` instead of being dropped. -/
set_option linter.unusedSectionVars false
set_option linter.unusedSimpArgs false
namespace Verif.PartialMap
open PartialSpec OptionalPair
open CycleSpec (upTo Seen upTo_map upTo_perm)

variable [RawImpl] {L R : Type} [BEq L] [BEq R]

/-- `drain()` — 1366-1371 —, at most `n` calls of `next` — 2309-2329 —, then `mem::forget` of the iterator: `Drop` — 2280-2292 — is not run.
`RawTable::drain` moves the left table out of the map and leaves a new one in its place. -/
def drainForget (m : PartialMap L R) (n : Nat) : Res (List (OptionalPair L R) × PartialMap L R) := do
  let (ps, it) ← DrainIter.take n m.drain
  return (ps, { m with left := RawTable.withCapacity 0, right := it.right })

/-- `drain_filter(f)` — 1401-1418 —, at most `n` calls of `next` — 2386-2388 —, then `mem::forget` of the iterator: `Drop` — 2365-2378 — is not
run.  The tables are only borrowed, so they stay as the last call of `next` left them. -/
def drainFilterForget {σ : Type} (m : PartialMap L R) (f : σ → OptionalPair L R → Bool × σ) (st : σ) (n : Nat) :
    Res (List (OptionalPair L R) × σ × PartialMap L R) := do
  let (ps, it) ← DrainFilter.take f n
    { keptL := [], todoL := m.left.entries, right := m.right, reset := true, keptR := [], todoR := [], st := st }
  return (ps, it.st, { m with
    left := RawImpl.touch (.erase (stays m.left (it.keptL ++ it.todoL))) { m.left with entries := it.keptL ++ it.todoL },
    right := if it.reset then it.right else
      RawImpl.touch (.erase (stays it.right (it.keptR ++ it.todoR))) { it.right with entries := it.keptR ++ it.todoR } })

variable [LawfulRaw] [EquivBEq L] [EquivBEq R] {m : PartialMap L R} {c : List (OptionalPair L R)}

/-! ### drain -/

/-- `drain` forgotten after `n` entries with a left item: `us` are the lone right items -/
theorem drainForget_refines (h : Repr m c) (n : Nat) :
    ∃ (d us : List (OptionalPair L R)) (m' : PartialMap L R), (d ++ us).Perm c ∧ (∀ e ∈ d, (leftOf e).isSome = true) ∧
      (∀ e ∈ us, leftOf e = none) ∧ m'.hb = m.hb ∧ m'.counter = m.counter ∧ m'.left.entries = [] ∧
      (n ≤ d.length → m.drainForget n = .ok (d.take n, m') ∧
        ∃ rs vs : List (Rec L R), rs.map Rec.e = d.drop n ∧ vs.map Rec.e = us ∧ m'.right.entries.Perm (tabR m.hb (rs ++ vs)) ∧
          (rs ++ vs).Pairwise Apart ∧ ∀ q ∈ rs ++ vs, q.id < m.counter) ∧
      (d.length < n → m'.right.entries = [] ∧ ∃ x : Option (OptionalPair L R), m.drainForget n = .ok (d ++ x.toList, m') ∧
        (x = none ↔ us = []) ∧ ∀ e, x = some e → e ∈ us) := by
  obtain ⟨qs, us, hp, hr, he, hs, hn⟩ := h.ordered
  have hd : m.drain = ⟨elemsL m.hb qs, m.right⟩ := by simp [drain, RawTable.toList, he, elemsL]
  have hne : ∀ u ∈ us, u.e ≠ neither := fun u hu => hr.nonempty u (List.mem_append_right _ hu)
  have hl : (RawTable.withCapacity 0 : RawTable (MappingPair L)).entries = [] := (LawfulRaw.touch_perm _ _).eq_nil
  by_cases hle : n ≤ qs.length
  · obtain ⟨t1, e1, h1⟩ := drain_take (hb := m.hb) n hr.right (apart_ids hr.apart) hs hle
    refine ⟨qs.map Rec.e, us.map Rec.e, { m with left := RawTable.withCapacity 0, right := t1 }, by simpa using hp,
      by simpa using hs, by simpa using hn, rfl, rfl, hl, fun _ => ⟨?_, qs.drop n, us, by simp, rfl, h1, ?_, ?_⟩,
      fun hlt => by simp at hlt; omega⟩
    · simp only [drainForget, hd, e1, bind, Except.bind, List.map_take]; rfl
    · exact hr.apart.sublist ((List.drop_sublist _ _).append_right _)
    · intro q hq
      refine hr.bound q ?_
      rcases List.mem_append.1 hq with hq | hq
      · exact List.mem_append_left _ (List.mem_of_mem_drop hq)
      · exact List.mem_append_right _ hq
  · obtain ⟨k, rfl⟩ : ∃ k, n = qs.length + (k + 1) := ⟨n - qs.length - 1, by omega⟩
    obtain ⟨t2, x, h2, e2, t3, h3, h4⟩ := drain_take_all (hb := m.hb) k hr.right (apart_ids hr.apart) hs
    obtain ⟨k1, k2⟩ := lone_head h3 hn hne
    rw [← h4] at k1 k2
    refine ⟨qs.map Rec.e, us.map Rec.e, { m with left := RawTable.withCapacity 0, right := t2 }, by simpa using hp,
      by simpa using hs, by simpa using hn, rfl, rfl, hl, fun hlt => absurd hlt (by simp), fun _ => ⟨h2, x, ?_, by simpa using k1, k2⟩⟩
    simp only [drainForget, hd, e2, bind, Except.bind]; rfl

/-! ### drain_filter -/

theorem take_right {σ : Type} (f : σ → OptionalPair L R → Bool × σ) (n : Nat) (keptL : List (UInt64 × MappingPair L))
    (t : RawTable (MappingPair R)) (todo kept : List (UInt64 × MappingPair R)) (s : σ) :
    DrainFilter.take f n ⟨keptL, [], t, false, kept, todo, s⟩ =
      .ok ((upTo (onR f) n todo s).accepted.map fun e => someRight e.2.value,
        ⟨keptL, [], t, false, kept ++ (upTo (onR f) n todo s).rejected, (upTo (onR f) n todo s).unseen, (upTo (onR f) n todo s).state⟩) := by
  induction todo generalizing n kept s with
  | nil =>
    cases n with
    | zero => simp [DrainFilter.take, upTo]
    | succ n =>
      simp [DrainFilter.take, DrainFilter.next, DrainFilter.nextL, DrainFilter.nextR, upTo, bind, Except.bind, pure, Except.pure]
  | cons e todo ih =>
    cases n with
    | zero => simp [DrainFilter.take, upTo]
    | succ n =>
      cases hf : f s (someRight e.2.value) with
      | mk b s' =>
        have hf' : onR f s e = (b, s') := hf
        cases b with
        | true =>
          have := ih n kept s'
          simp [DrainFilter.take, DrainFilter.next, DrainFilter.nextL, DrainFilter.nextR, upTo, hf, hf', bind, Except.bind, pure,
            Except.pure, this]
        | false =>
          have h1 := ih (n + 1) (kept ++ [e]) s'
          have hs : DrainFilter.next f ⟨keptL, [], t, false, kept, e :: todo, s⟩ =
              DrainFilter.next f ⟨keptL, [], t, false, kept ++ [e], todo, s'⟩ := by
            simp [DrainFilter.next, DrainFilter.nextL, DrainFilter.nextR, hf, bind, Except.bind, pure, Except.pure]
          simp only [DrainFilter.take, upTo, hf'] at h1 ⊢
          rw [hs, h1]; simp

theorem take_left {σ : Type} {hb : BuildHasher L R} (f : σ → OptionalPair L R → Bool × σ) (n : Nat)
    {ks qs us : List (Rec L R)} {t : RawTable (MappingPair R)} (s : σ)
    (ht : t.entries.Perm (tabR hb (ks ++ qs ++ us))) (ha : (ks ++ qs ++ us).Pairwise Apart)
    (hs : ∀ q ∈ qs, (leftOf q.e).isSome = true) :
    ∃ t1 : RawTable (MappingPair R),
      t1.entries.Perm (tabR hb (ks ++ ((upTo (onE f) n qs s).rejected ++ (upTo (onE f) n qs s).unseen) ++ us)) ∧
      ((upTo (onE f) n qs s).accepted.length = n ∧
        DrainFilter.take f n ⟨tabL hb ks, tabL hb qs, t, true, [], [], s⟩ =
          .ok ((upTo (onE f) n qs s).accepted.map Rec.e, ⟨tabL hb (ks ++ (upTo (onE f) n qs s).rejected), tabL hb (upTo (onE f) n qs s).unseen,
            t1, true, [], [], (upTo (onE f) n qs s).state⟩) ∨
       (upTo (onE f) n qs s).unseen = [] ∧ ∃ k, n = (upTo (onE f) n qs s).accepted.length + (k + 1) ∧
        DrainFilter.take f n ⟨tabL hb ks, tabL hb qs, t, true, [], [], s⟩ =
          (DrainFilter.take f (k + 1) ⟨tabL hb (ks ++ (upTo (onE f) n qs s).rejected), [], t1, true, [], [], (upTo (onE f) n qs s).state⟩).map
            fun x => ((upTo (onE f) n qs s).accepted.map Rec.e ++ x.1, x.2)) := by
  induction qs generalizing n ks t s with
  | nil =>
    cases n with
    | zero => exact ⟨t, by simpa [upTo] using ht, .inl ⟨rfl, by simp [DrainFilter.take, upTo]⟩⟩
    | succ n =>
      refine ⟨t, by simpa [upTo] using ht, .inr ⟨rfl, n, by simp [upTo], ?_⟩⟩
      simp only [upTo, List.map_nil, List.nil_append, List.append_nil]
      cases h : DrainFilter.take f (n + 1) ⟨tabL hb ks, tabL hb [], t, true, [], [], s⟩ <;> (have h' := h; simp only [tabL, List.filterMap_nil] at h'; simp only [tabL]; rw [h']; rfl)
  | cons q qs ih =>
    cases n with
    | zero => exact ⟨t, by simpa [upTo] using ht, .inl ⟨rfl, by simp [DrainFilter.take, upTo]⟩⟩
    | succ n =>
      obtain ⟨t1, h1, e1⟩ := yields_step f s ht (apart_ids ha) (hs q (by simp))
      have hs' : ∀ x ∈ qs, (leftOf x.e).isSome = true := fun x hx => hs x (List.mem_cons_of_mem _ hx)
      cases hf : f s q.e with
      | mk b s' =>
        have hf' : onE f s q = (b, s') := hf
        rw [hf] at e1
        cases b with
        | true =>
          have ha' : (ks ++ qs ++ us).Pairwise Apart := by
            have hp : (ks ++ (q :: qs) ++ us).Perm (q :: (ks ++ qs ++ us)) := by
              rw [List.append_assoc, List.append_assoc, List.cons_append]; exact List.perm_middle
            exact (List.pairwise_cons.1 (pairwise_perm ha hp)).2
          simp only [if_true] at e1
          obtain ⟨t2, h2, hor⟩ := ih n s' h1 ha' hs'
          refine ⟨t2, by simpa only [upTo, hf'] using h2, ?_⟩
          rcases hor with ⟨hl, e2⟩ | ⟨hu, k, hk, e2⟩
          · refine .inl ⟨by simp [upTo, hf', hl], ?_⟩
            simp only [DrainFilter.take, e1, bind, Except.bind, e2, upTo, hf']; rfl
          · refine .inr ⟨by simpa only [upTo, hf'] using hu, k, ?_, ?_⟩
            · simp only [upTo, hf', List.length_cons]; omega
            · rw [DrainFilter.take]
              simp only [e1, bind, Except.bind, e2, upTo, hf']
              cases DrainFilter.take f (k + 1) _ <;> rfl
        | false =>
          simp only [Bool.false_eq_true, if_false] at e1
          obtain ⟨t2, h2, hor⟩ := ih (n + 1) (ks := ks ++ [q]) s' (by simpa using ht) (by simpa using ha) hs'
          have e3 : DrainFilter.take f (n + 1) ⟨tabL hb ks, tabL hb (q :: qs), t, true, [], [], s⟩ =
              DrainFilter.take f (n + 1) ⟨tabL hb (ks ++ [q]), tabL hb qs, t, true, [], [], s'⟩ := by
            rw [DrainFilter.take, e1, DrainFilter.take]
          rw [e3]
          refine ⟨t2, by simpa [upTo, hf'] using h2, ?_⟩
          rcases hor with ⟨hl, e2⟩ | ⟨hu, k, hk, e2⟩
          · exact .inl ⟨by simpa [upTo, hf'] using hl, by rw [e2]; simp [upTo, hf']⟩
          · exact .inr ⟨by simpa [upTo, hf'] using hu, k, by simpa [upTo, hf'] using hk, by rw [e2]; simp [upTo, hf']⟩

theorem upTo_tabR {σ : Type} {hb : BuildHasher L R} (f : σ → OptionalPair L R → Bool × σ) {rs : List (Rec L R)}
    (h : ∀ q ∈ rs, (rightOf q.e).isSome = true) (n : Nat) (s : σ) :
    upTo (onR f) n (tabR hb rs) s = ⟨tabR hb (upTo (onAsRight f) n rs s).accepted, tabR hb (upTo (onAsRight f) n rs s).rejected,
      tabR hb (upTo (onAsRight f) n rs s).unseen, (upTo (onAsRight f) n rs s).state⟩ := by
  induction rs generalizing n s with
  | nil => cases n <;> rfl
  | cons q rs ih =>
    cases n with
    | zero => simp [upTo, tabR]
    | succ n =>
      have ih := fun n s => ih (fun x hx => h x (List.mem_cons_of_mem _ hx)) n s
      have hq := h q (by simp)
      obtain ⟨x, hx⟩ := Option.isSome_iff_exists.1 ((toR_isSome (hb := hb)).trans hq)
      have hc : ∀ l, tabR hb (q :: l) = x :: tabR hb l := fun l => by rw [tabR, List.filterMap_cons_some hx]; rfl
      have hf : onR f s x = onAsRight f s q := by
        obtain ⟨e, i⟩ := q
        cases e <;> cases hx <;> rfl
      rw [hc]
      cases hb' : onAsRight f s q with
      | mk b s' => cases b <;> simp [upTo, hb', hf, ih, hc]

/-- `drain_filter` forgotten.  The closure was first shown the entries with a left item until it had accepted `n` of them; if there
were fewer, it was shown the right items still there as if they were alone until it had accepted `n` in all. -/
theorem drainFilterForget_refines {σ : Type} (h : Repr m c) (f : σ → OptionalPair L R → Bool × σ) (s : σ) (n : Nat) :
    ∃ (d1 us d2 : List (OptionalPair L R)) (x1 x2 : Seen σ (OptionalPair L R)) (m' : PartialMap L R),
      (d1 ++ us).Perm c ∧ (∀ e ∈ d1, (leftOf e).isSome = true) ∧ (∀ e ∈ us, leftOf e = none) ∧
      x1 = upTo f n d1 s ∧
      (d2 ++ (x1.rejected ++ x1.unseen).filter fun e => (rightOf e).isNone).Perm (x1.rejected ++ x1.unseen ++ us) ∧
      (∀ e ∈ d2, (rightOf e).isSome = true) ∧
      x2 = upTo (fun s e => f s (asRight e)) (n - x1.accepted.length) d2 x1.state ∧
      m.drainFilterForget f s n = .ok (x1.accepted ++ x2.accepted.map asRight, x2.state, m') ∧
      m'.hb = m.hb ∧ m'.counter = m.counter ∧
      m'.iterLeft.Perm ((x1.rejected ++ x1.unseen).filterMap leftOf) ∧
      m'.iterRight.Perm ((x2.rejected ++ x2.unseen).filterMap rightOf) ∧
      (∀ l r, someBoth l r ∈ x2.accepted →
        m'.isLeftPaired l = true ∧ m'.getRight l = none ∧ m'.removeViaLeft l = .error .unwrapNone) ∧
      ((∀ l r, someBoth l r ∉ x2.accepted) →
        Repr m' (x2.rejected ++ x2.unseen ++ (x1.rejected ++ x1.unseen).filter fun e => (rightOf e).isNone)) := by
  obtain ⟨qs, us, hp, hr, he, hs, hn⟩ := h.ordered
  obtain ⟨t1, h1, hor⟩ := take_left (hb := m.hb) (ks := []) f n s (by simpa using hr.right) (by simpa using hr.apart) hs
  have hsp := upTo_perm (onE f) n qs s
  have hmapped1 : upTo f n (qs.map Rec.e) s = (upTo (onE f) n qs s).map Rec.e := upTo_map f Rec.e n qs s
  generalize hx1 : upTo (onE f) n qs s = x1 at *
  rw [List.nil_append] at h1
  obtain ⟨rs, ws, hk, ht, hrs, hws⟩ := perm_filterMap_inv h1
  have hrs' : ∀ q ∈ rs, (rightOf q.e).isSome = true := fun q hm => by rw [← toR_isSome (hb := m.hb)]; exact hrs q hm
  have hws' : ∀ q ∈ ws, rightOf q.e = none := fun q hm => toR_none.1 (hws q hm)
  have he' : t1.entries = tabR m.hb rs := ht
  have hsp2 := upTo_perm (onAsRight f) (n - x1.accepted.length) rs x1.state
  have hmapped2 : upTo (fun s e => f s (asRight e)) (n - x1.accepted.length) (rs.map Rec.e) x1.state =
    (upTo (onAsRight f) (n - x1.accepted.length) rs x1.state).map Rec.e := upTo_map _ Rec.e _ rs _
  have hmain : ∃ m' : PartialMap L R, m.drainFilterForget f s n = .ok (x1.accepted.map Rec.e ++
        (upTo (onAsRight f) (n - x1.accepted.length) rs x1.state).accepted.map (fun q => asRight q.e),
        (upTo (onAsRight f) (n - x1.accepted.length) rs x1.state).state, m') ∧ m'.hb = m.hb ∧ m'.counter = m.counter ∧
      m'.left.entries.Perm (tabL m.hb (x1.rejected ++ x1.unseen)) ∧
      m'.right.entries.Perm (tabR m.hb ((upTo (onAsRight f) (n - x1.accepted.length) rs x1.state).rejected ++
        (upTo (onAsRight f) (n - x1.accepted.length) rs x1.state).unseen)) := by
    rcases hor with ⟨hl, e1⟩ | ⟨hu, k, hkn, e1⟩
    · rw [hl, Nat.sub_self]
      refine ⟨{ m with
        left := RawImpl.touch (.erase (stays m.left (tabL m.hb x1.rejected ++ tabL m.hb x1.unseen)))
          { m.left with entries := tabL m.hb x1.rejected ++ tabL m.hb x1.unseen },
        right := t1 }, ?_, rfl, rfl, ?_, ?_⟩
      · have e2 : tabL m.hb ([] : List (Rec L R)) = [] := rfl
        rw [e2] at e1
        simp only [drainFilterForget, he, e1, bind, Except.bind, pure, Except.pure, if_true, List.nil_append, upTo, List.map_nil,
          List.append_nil]
      · refine (LawfulRaw.touch_perm _ _).trans ?_
        simp only [tabL, List.filterMap_append]; exact .refl _
      · simp only [upTo, List.nil_append]; rw [he']
    · have hn2 : n - x1.accepted.length = k + 1 := by omega
      rw [hn2]
      have e2 : DrainFilter.take f (k + 1) ⟨tabL m.hb ([] ++ x1.rejected), [], t1, true, [], [], x1.state⟩ =
          DrainFilter.take f (k + 1) ⟨tabL m.hb ([] ++ x1.rejected), [], t1, false, [], t1.entries, x1.state⟩ := by
        rw [DrainFilter.take, DrainFilter.take]; rfl
      rw [e2, take_right, he', upTo_tabR f hrs'] at e1
      have ha2R : ∀ q ∈ (upTo (onAsRight f) (k + 1) rs x1.state).accepted, (rightOf q.e).isSome = true := fun q hm =>
        hrs' q ((upTo_perm (onAsRight f) (k + 1) rs x1.state).mem_iff.2 (List.mem_append_left _ hm))
      simp only [Except.map, tabR_asRight ha2R, List.nil_append] at e1
      have e3 : tabL m.hb ([] : List (Rec L R)) = [] := rfl
      rw [e3] at e1
      refine ⟨{ m with
        left := RawImpl.touch (.erase (stays m.left (tabL m.hb x1.rejected ++ []))) { m.left with entries := tabL m.hb x1.rejected ++ [] },
        right := RawImpl.touch (.erase (stays t1 (tabR m.hb (upTo (onAsRight f) (k + 1) rs x1.state).rejected ++
            tabR m.hb (upTo (onAsRight f) (k + 1) rs x1.state).unseen)))
          { t1 with entries := (tabR m.hb (upTo (onAsRight f) (k + 1) rs x1.state).rejected ++
              tabR m.hb (upTo (onAsRight f) (k + 1) rs x1.state).unseen) } }, ?_, rfl, rfl, ?_, ?_⟩
      · simp only [drainFilterForget, he, e1, bind, Except.bind, pure, Except.pure, Bool.false_eq_true, if_false]
      · refine (LawfulRaw.touch_perm _ _).trans ?_
        rw [hu]; simp
      · refine (LawfulRaw.touch_perm _ _).trans ?_
        simp only [tabR, List.filterMap_append]; exact .refl _
  have hacc2 : ∀ q ∈ (upTo (onAsRight f) (n - x1.accepted.length) rs x1.state).accepted, (rightOf q.e).isSome = true :=
    fun q hm => hrs' q (hsp2.mem_iff.2 (List.mem_append_left _ hm))
  generalize upTo (onAsRight f) (n - x1.accepted.length) rs x1.state = x2 at *
  obtain ⟨m', e, hbm, hcm, hleft, hright⟩ := hmain
  have hsub : ∀ q ∈ x1.rejected ++ x1.unseen, q ∈ qs := fun q hm => hsp.mem_iff.2 (List.mem_append_right _ hm)
  have husR : ∀ u ∈ us, (rightOf u.e).isSome = true := by
    intro u hu
    obtain ⟨b, hb⟩ := loneRight_of (hn u hu) (hr.nonempty u (List.mem_append_right _ hu))
    rw [hb]; rfl
  have hrec : ∀ q ∈ rs ++ ws, q ∈ qs ++ us := by
    intro q hm
    rcases List.mem_append.1 (hk.mem_iff.2 hm) with hm | hm
    · exact List.mem_append_left _ (hsub q hm)
    · exact List.mem_append_right _ hm
  have hapart : (rs ++ ws).Pairwise Apart := by
    have e1 : (qs ++ us).Perm (x1.accepted ++ (x1.rejected ++ x1.unseen ++ us)) := by
      rw [← List.append_assoc]; exact hsp.append_right _
    exact pairwise_perm (List.pairwise_append.1 (pairwise_perm hr.apart e1)).2.1 hk
  have hfil : (((x1.rejected ++ x1.unseen).map Rec.e).filter fun e => (rightOf e).isNone).Perm (ws.map Rec.e) := by
    have e1 := ((hk.map Rec.e).filter fun e => (rightOf e).isNone)
    rw [List.map_append, List.map_append (l₁ := rs), List.filter_append, List.filter_append (l₁ := rs.map Rec.e)] at e1
    have e2 : (us.map Rec.e).filter (fun e => (rightOf e).isNone) = [] := by
      rw [List.filter_eq_nil_iff]; intro e he
      obtain ⟨u, hu, rfl⟩ := List.mem_map.1 he
      have := husR u hu
      cases hx : rightOf u.e <;> simp_all
    have e3 : (rs.map Rec.e).filter (fun e => (rightOf e).isNone) = [] := by
      rw [List.filter_eq_nil_iff]; intro e he
      obtain ⟨u, hu, rfl⟩ := List.mem_map.1 he
      have := hrs' u hu
      cases hx : rightOf u.e <;> simp_all
    have e4 : (ws.map Rec.e).filter (fun e => (rightOf e).isNone) = ws.map Rec.e := by
      rw [List.filter_eq_self]; intro e he
      obtain ⟨u, hu, rfl⟩ := List.mem_map.1 he
      rw [hws' u hu]; rfl
    rw [e2, e3, e4, List.append_nil, List.nil_append] at e1
    exact e1
  refine ⟨qs.map Rec.e, us.map Rec.e, rs.map Rec.e, x1.map Rec.e, x2.map Rec.e, m', by simpa using hp, by simpa using hs,
    by simpa using hn, hmapped1.symm, ?_, by simpa using hrs', ?_, ?_, hbm, hcm, ?_, ?_, ?_, ?_⟩
  · simp only [Seen.map, ← List.map_append]
    refine (List.Perm.append_left _ hfil).trans ?_
    rw [← List.map_append]; exact (hk.map _).symm
  · simp only [Seen.map, List.length_map]; exact hmapped2.symm
  · rw [e]; simp [Seen.map, Function.comp_def]
  · simp only [Seen.map, ← List.map_append, iterLeft, RawTable.toList, List.map_map]
    refine (hleft.map _).trans ?_
    rw [← tabL_values (hb := m.hb)]; rfl
  · simp only [Seen.map, ← List.map_append, iterRight, RawTable.toList, List.map_map]
    refine (hright.map _).trans ?_
    rw [← tabR_values (hb := m.hb)]; rfl
  · intro l r hm
    obtain ⟨⟨e, i⟩, hqa, heq⟩ := List.mem_map.1 hm
    have heq : e = someBoth l r := heq
    subst heq
    have hqr : (⟨someBoth l r, i⟩ : Rec L R) ∈ rs := hsp2.mem_iff.2 (List.mem_append_left _ hqa)
    have hqk : (⟨someBoth l r, i⟩ : Rec L R) ∈ x1.rejected ++ x1.unseen := by
      rcases List.mem_append.1 (hk.mem_iff.2 (List.mem_append_left _ hqr)) with h | h
      · exact h
      · exact absurd (hn _ h) (by simp [leftOf])
    obtain ⟨k1', hk1'⟩ := perm_cons_of_mem hqk
    have hap := pairwise_perm hapart hk.symm
    have hap1 := List.pairwise_cons.1 (pairwise_perm (List.pairwise_append.1 hap).1 hk1')
    have hids2 : ∀ q ∈ x2.rejected ++ x2.unseen, i ≠ q.id := by
      intro q hq
      have := (List.pairwise_append.1 (pairwise_perm (List.pairwise_append.1 hapart).1 hsp2)).2.2 _ hqa q hq
      exact this.1
    have pl : m'.left.entries.Perm ((m'.hb.hl l, ⟨l, some (m'.hb.hr r), i⟩) :: tabL m'.hb k1') := by
      rw [hbm]
      exact hleft.trans (hk1'.filterMap _)
    have nr : ∀ x ∈ m'.right.entries, hashAndId (m'.hb.hl l) i x.2 = false := by
      intro x hx
      exact hidsR _ hids2 x (hright.mem_iff.1 hx)
    have hkey : ∀ y ∈ tabL m'.hb k1', equivalentKey l y.2 = false :=
      keysL fun q hq => hasL_false_of (x := someBoth l r) (by simp [hasL]) (hap1.1 q hq).2
    have g1 := RawTable.get_some (h := m'.hb.hl l) (p := equivalentKey l) pl rfl BEq.rfl hkey
    obtain ⟨t', g2, _⟩ := RawTable.removeEntry_some (h := m'.hb.hl l) (p := equivalentKey l) pl rfl BEq.rfl hkey
    have g3 := g1
    have e0 : (equivalentKey l) = fun x => l == x.value := rfl
    rw [e0] at g3
    refine ⟨?_, ?_, ?_⟩
    · simp only [isLeftPaired, g1]; rfl
    · simp only [getRight, getRightBy, g3, RawTable.get_none nr]
    · simp only [removeViaLeft, g2, RawTable.removeEntry_none nr]
  · intro hsafe
    have hlone : ∀ q ∈ x2.accepted, leftOf q.e = none := by
      intro q hm
      have hR := hacc2 q hm
      obtain ⟨e, i⟩ := q
      cases e with
      | neither => cases hR
      | someLeft => cases hR
      | someRight => rfl
      | someBoth a b => exact absurd (List.mem_map.2 ⟨_, hm, rfl⟩) (hsafe a b)
    have htl : ∀ l : List (Rec L R), (∀ q ∈ l, leftOf q.e = none) → tabL m.hb l = [] := fun l hl => by
      rw [tabL, List.filterMap_eq_nil_iff]; intro q hq; exact toL_none.2 (hl q hq)
    have htr : tabR m.hb ws = [] := by
      rw [tabR, List.filterMap_eq_nil_iff]; intro q hq; exact toR_none.2 (hws' q hq)
    have hfull : (rs ++ ws).Perm (x2.accepted ++ (x2.rejected ++ x2.unseen ++ ws)) := by
      rw [← List.append_assoc]; exact hsp2.append_right _
    refine ⟨x2.rejected ++ x2.unseen ++ ws, ⟨?_, ?_, ?_, ?_, ?_⟩, ?_⟩
    · rw [hbm]
      refine hleft.trans ?_
      have e1 : tabL m.hb (x1.rejected ++ x1.unseen) = tabL m.hb (x1.rejected ++ x1.unseen ++ us) := by
        have := htl us hn
        simp only [tabL, List.filterMap_append] at this ⊢
        rw [this, List.append_nil]
      have e2 : tabL m.hb (x2.rejected ++ x2.unseen ++ ws) = tabL m.hb (x2.accepted ++ (x2.rejected ++ x2.unseen ++ ws)) := by
        have := htl x2.accepted hlone
        simp only [tabL, List.filterMap_append] at this ⊢
        rw [this, List.nil_append]
      rw [e1, e2]
      exact (hk.trans hfull).filterMap _
    · rw [hbm]
      refine hright.trans ?_
      simp only [tabR, List.filterMap_append] at htr ⊢
      rw [htr, List.append_nil]
    · exact (List.pairwise_append.1 (pairwise_perm hapart hfull)).2.1
    · intro q hm
      rw [hcm]
      exact hr.bound q (hrec q (hfull.mem_iff.2 (List.mem_append_right _ hm)))
    · intro q hm
      exact hr.nonempty q (hrec q (hfull.mem_iff.2 (List.mem_append_right _ hm)))
    · simp only [Seen.map, ← List.map_append]
      rw [List.map_append]
      exact List.Perm.append_left _ hfil.symm

end Verif.PartialMap
