import Verif.PartialMap.WeakIter
/-! `PartialCycleMap` with a `==` that is any relation the hash agrees with: `drain`, `drain_filter` and the
`retain` family. -/
set_option linter.unusedSectionVars false
set_option linter.unusedSimpArgs false
namespace Verif.PartialMap
open PartialSpec PartialWeak OptionalPair
open CycleSpec (split)
open CycleMap (eq_false_of_ne_true' removeEntry_of_get_none get_removeEntry split_perm)

variable [RawImpl] [LawfulRaw] {L R : Type} [BEq L] [BEq R]
variable {m : PartialMap L R} {p q : Rec L R} {ps qs : List (Rec L R)} {l : L} {r : R}

theorem pairwise_ids {as bs : List (Rec L R)} (h : as.Pairwise (·.id ≠ ·.id)) (hp : as.Perm bs) :
    bs.Pairwise (·.id ≠ ·.id) := (hp.pairwise_iff (fun h => Ne.symm h)).1 h

/-! ### drain -/

/-- `drain`: the entries with a left item in some order, then one lone right item if there is any. -/
theorem drainTake_weak (h : Linked m ps) (n : Nat) :
    ∃ (d : List (OptionalPair L R)) (x : Option (OptionalPair L R)) (m' : PartialMap L R),
      d.Perm ((ents ps).filter fun e => (leftOf e).isSome) ∧ (x = none ↔ ∀ e ∈ ents ps, (leftOf e).isSome = true) ∧
      (∀ e, x = some e → e ∈ ents ps ∧ leftOf e = none) ∧
      m.drainTake n = .ok ((d ++ x.toList).take n, m') ∧ Linked m' [] ∧ m'.hb = m.hb ∧ m'.counter = m.counter := by
  obtain ⟨qs, us, hp, hr, he, hs, hn⟩ := h.ordered
  have hp : (ents (qs ++ us)).Perm (ents ps) := (hp.map Rec.e).symm
  have hd : m.drain = ⟨elemsL m.hb qs, m.right⟩ := by simp [drain, RawTable.toList, he, elemsL]
  have hne : ∀ u ∈ us, u.e ≠ neither := fun u hu => hr.nonempty u (List.mem_append_right _ hu)
  have hperm : (qs.map Rec.e).Perm ((ents ps).filter fun e => (leftOf e).isSome) := by
    rw [← filter_left hs hn]; exact hp.filter _
  have hx1 : ∀ e, e ∈ us.map Rec.e → e ∈ ents ps ∧ leftOf e = none := by
    intro e he
    obtain ⟨u, hu, rfl⟩ := List.mem_map.1 he
    exact ⟨hp.mem_iff.1 (List.mem_map_of_mem (List.mem_append_right _ hu)), hn u hu⟩
  have hx2 : us = [] ↔ ∀ e ∈ ents ps, (leftOf e).isSome = true := by
    constructor
    · rintro rfl e he
      obtain ⟨q, hq, rfl⟩ := List.mem_map.1 (hp.mem_iff.2 he)
      exact hs q (by simpa using hq)
    · intro hall
      cases us with
      | nil => rfl
      | cons u us =>
        have := hall u.e (hp.mem_iff.1 (List.mem_map_of_mem (List.mem_append_right _ (by simp))))
        rw [hn u (by simp)] at this; cases this
  by_cases hle : n ≤ qs.length
  · obtain ⟨t1, e1, h1⟩ := drain_take (hb := m.hb) n hr.right hr.ids hs hle
    have hs' : ∀ q ∈ qs.drop n, (leftOf q.e).isSome = true := fun q hq => hs q (List.mem_of_mem_drop hq)
    obtain ⟨t2, x, h2, e2, t3, h3, h4⟩ := drain_take_all (hb := m.hb) 1 h1
      (hr.ids.sublist ((List.drop_sublist _ _).append_right _)) hs'
    obtain ⟨k1, k2⟩ := lone_head h3 hn hne
    rw [← h4] at k1 k2
    refine ⟨_, x, { m with left := m.left.clear, right := t2 }, hperm, k1.trans hx2, fun e he => hx1 e (k2 e he), ?_,
      .nil (RawTable.clear_entries _) h2, rfl, rfl⟩
    simp only [drainTake, hd, e1, bind, Except.bind, elemsL_length hs', e2]
    rw [List.take_append_of_le_length (by simpa using hle), List.map_take]; rfl
  · obtain ⟨k, rfl⟩ : ∃ k, n = qs.length + (k + 1) := ⟨n - qs.length - 1, by omega⟩
    obtain ⟨t2, x, h2, e2, t3, h3, h4⟩ := drain_take_all (hb := m.hb) k hr.right hr.ids hs
    obtain ⟨k1, k2⟩ := lone_head h3 hn hne
    rw [← h4] at k1 k2
    obtain ⟨t5, h5, e5⟩ := drain_end (L := L) 1 t2
    refine ⟨_, x, { m with left := m.left.clear, right := t5 }, hperm, k1.trans hx2, fun e he => hx1 e (k2 e he), ?_,
      .nil (RawTable.clear_entries _) h5, rfl, rfl⟩
    simp only [drainTake, hd, e2, bind, Except.bind, List.length_nil, Nat.zero_add, e5]
    rw [List.take_of_length_le (by cases x <;> simp)]; rfl

/-! ### drain_filter -/

/-- `drain_filter`: a first pass over the entries with a left item, then a second pass in which the
closure sees every remaining right item as if it were alone. -/
theorem drainFilterTake_weak {σ : Type} (h : Linked m ps) (f : σ → OptionalPair L R → Bool × σ) (s : σ) (n : Nat) :
    ∃ (d1 us d2 : List (OptionalPair L R)) (m' : PartialMap L R),
      (d1 ++ us).Perm (ents ps) ∧ (∀ e ∈ d1, (leftOf e).isSome = true) ∧ (∀ e ∈ us, leftOf e = none) ∧
      (d2 ++ (split f d1 s).2.1.filter fun e => (rightOf e).isNone).Perm ((split f d1 s).2.1 ++ us) ∧
      (∀ e ∈ d2, (rightOf e).isSome = true) ∧
      m.drainFilterTake f s n =
        .ok (((split f d1 s).1 ++ (split (fun s e => f s (asRight e)) d2 (split f d1 s).2.2).1.map asRight).take n,
          (split (fun s e => f s (asRight e)) d2 (split f d1 s).2.2).2.2, m') ∧
      m'.hb = m.hb ∧ m'.counter = m.counter ∧
      ((∀ s l r, someBoth l r ∈ ents ps → (f s (someRight r)).1 = false) →
        ∃ ks, Linked m' ks ∧ (ents ks).Perm ((split (fun s e => f s (asRight e)) d2 (split f d1 s).2.2).2.1 ++
          (split f d1 s).2.1.filter fun e => (rightOf e).isNone)) := by
  obtain ⟨qs, us, hp, hr, he, hs, hn⟩ := h.ordered
  have hp : (ents (qs ++ us)).Perm (ents ps) := (hp.map Rec.e).symm
  obtain ⟨t1, h1, y1⟩ := yields_left (hb := m.hb) (ks := []) f s (by simpa using hr.right) (by simpa using hr.ids) hs
  obtain ⟨rs, ws, hq, ht, hrs, hws⟩ := perm_filterMap_inv h1
  have hrs' : ∀ q ∈ rs, (rightOf q.e).isSome = true := fun q hm => by rw [← toR_isSome (hb := m.hb)]; exact hrs q hm
  have hws' : ∀ q ∈ ws, rightOf q.e = none := fun q hm => toR_none.1 (hws q hm)
  rw [List.nil_append] at hq h1
  have hsp := split_perm (onE f) qs s
  have hk : ((split (onE f) qs s).2.1 ++ us).Perm (rs ++ ws) := hq
  have hsub : ∀ q ∈ (split (onE f) qs s).2.1, q ∈ qs := fun q hm => hsp.mem_iff.2 (List.mem_append_right _ hm)
  have husR : ∀ u ∈ us, (rightOf u.e).isSome = true := by
    intro u hu
    obtain ⟨b, hb⟩ := loneRight_of (hn u hu) (hr.nonempty u (List.mem_append_right _ hu))
    rw [hb]; rfl
  have hrec : ∀ q ∈ rs ++ ws, q ∈ qs ++ us := by
    intro q hm
    rcases List.mem_append.1 (hk.mem_iff.2 hm) with hm | hm
    · exact List.mem_append_left _ (hsub q hm)
    · exact List.mem_append_right _ hm
  have hapart : (rs ++ ws).Pairwise (·.id ≠ ·.id) := by
    have e1 : (qs ++ us).Perm ((split (onE f) qs s).1 ++ ((split (onE f) qs s).2.1 ++ us)) := by
      rw [← List.append_assoc]; exact hsp.append_right _
    exact pairwise_ids (List.pairwise_append.1 (pairwise_ids hr.ids e1)).2.1 hk
  have he' : t1.entries = tabR m.hb rs := ht
  rw [he', split_tabR f hrs', List.nil_append] at y1
  have hmapped1 : split f (qs.map Rec.e) s = ((split (onE f) qs s).1.map Rec.e, (split (onE f) qs s).2.1.map Rec.e,
      (split (onE f) qs s).2.2) := split_mapped f Rec.e qs s
  have hmapped2 := fun s1 => split_mapped (fun s e => f s (asRight e)) Rec.e rs s1
  have hmapped2 : ∀ s1, split (fun s e => f s (asRight e)) (rs.map Rec.e) s1 = ((split (onAsRight f) rs s1).1.map Rec.e,
    (split (onAsRight f) rs s1).2.1.map Rec.e, (split (onAsRight f) rs s1).2.2) := hmapped2
  generalize hs1 : (split (onE f) qs s).2.2 = s1 at *
  generalize hk1 : (split (onE f) qs s).2.1 = k1 at *
  generalize ha1 : (split (onE f) qs s).1 = a1 at *
  have hsp2 := split_perm (onAsRight f) rs s1
  have hacc : ∀ q ∈ (split (onAsRight f) rs s1).1, ∃ s', (f s' (asRight q.e)).1 = true :=
    fun q hq => split_accepted (f := onAsRight f) hq
  generalize hs2 : (split (onAsRight f) rs s1).2.2 = s2 at *
  generalize hk2 : (split (onAsRight f) rs s1).2.1 = k2 at *
  generalize ha2 : (split (onAsRight f) rs s1).1 = a2 at *
  have ha2R : ∀ q ∈ a2, (rightOf q.e).isSome = true := fun q hm => hrs' q (hsp2.mem_iff.2 (List.mem_append_left _ hm))
  have hfil : ((k1.map Rec.e).filter fun e => (rightOf e).isNone).Perm (ws.map Rec.e) := by
    have e1 := ((hk.map Rec.e).filter fun e => (rightOf e).isNone)
    rw [List.map_append, List.map_append, List.filter_append, List.filter_append] at e1
    have e2 : (us.map Rec.e).filter (fun e => (rightOf e).isNone) = [] := by
      rw [List.filter_eq_nil_iff]; intro e he
      obtain ⟨u, hu, rfl⟩ := List.mem_map.1 he
      have := husR u hu
      cases hx : rightOf u.e <;> simp_all
    have e3 : (rs.map Rec.e).filter (fun e => (rightOf e).isNone) = [] := by
      rw [List.filter_eq_nil_iff]; intro e he
      obtain ⟨u, hu, rfl⟩ := List.mem_map.1 he
      have := hrs' u hu
      cases hx : rightOf u.e <;> simp_all
    have e4 : (ws.map Rec.e).filter (fun e => (rightOf e).isNone) = ws.map Rec.e := by
      rw [List.filter_eq_self]; intro e he
      obtain ⟨u, hu, rfl⟩ := List.mem_map.1 he
      rw [hws' u hu]; rfl
    rw [e2, e3, e4, List.append_nil, List.nil_append] at e1
    exact e1
  refine ⟨qs.map Rec.e, us.map Rec.e, rs.map Rec.e,
    { m with left := RawImpl.touch (.erase (stays m.left (tabL m.hb k1 ++ []))) { m.left with entries := tabL m.hb k1 ++ [] },
             right := RawImpl.touch (.erase (stays t1 (tabR m.hb k2 ++ []))) { t1 with entries := tabR m.hb k2 ++ [] } }, ?_, ?_, ?_, ?_, ?_, ?_, rfl, rfl, ?_⟩
  · simpa using hp
  · intro e he'; obtain ⟨q, hq, rfl⟩ := List.mem_map.1 he'; exact hs q hq
  · intro e he'; obtain ⟨q, hq, rfl⟩ := List.mem_map.1 he'; exact hn q hq
  · rw [hmapped1]
    refine (List.Perm.append_left _ hfil).trans ?_
    rw [← List.map_append, ← List.map_append]; exact (hk.map _).symm
  · intro e he'; obtain ⟨q, hq, rfl⟩ := List.mem_map.1 he'; exact hrs' q hq
  · have := drainFilterTake_of_yields (m := m) (s := s) (by rw [he]; exact y1) n
    rw [this, hmapped1]
    simp only [hmapped2, hs1]
    rw [ha2, hs2, tabR_asRight ha2R, List.map_map]; rfl
  · intro hsafe
    have hlone : ∀ q ∈ a2, leftOf q.e = none := by
      intro q hm
      obtain ⟨s', hs'⟩ := hacc q hm
      have hR := ha2R q hm
      have hin := hrec q (List.mem_append_left _ (hsp2.mem_iff.2 (List.mem_append_left _ hm)))
      obtain ⟨e, i⟩ := q
      cases e with
      | neither => cases hR
      | someLeft => cases hR
      | someRight => rfl
      | someBoth a b =>
        have := hsafe s' a b (hp.mem_iff.1 (List.mem_map_of_mem (f := Rec.e) hin))
        rw [asRight, this] at hs'; cases hs'
    have htl : ∀ l : List (Rec L R), (∀ q ∈ l, leftOf q.e = none) → tabL m.hb l = [] := fun l hl => by
      rw [tabL, List.filterMap_eq_nil_iff]; intro q hq; exact toL_none.2 (hl q hq)
    have htr : tabR m.hb ws = [] := by
      rw [tabR, List.filterMap_eq_nil_iff]; intro q hq; exact toR_none.2 (hws' q hq)
    have hfull : (rs ++ ws).Perm (a2 ++ (k2 ++ ws)) := by
      rw [← List.append_assoc]; exact hsp2.append_right _
    refine ⟨k2 ++ ws, ⟨?_, ?_, ?_, ?_, ?_⟩, ?_⟩
    · refine (LawfulRaw.touch_perm _ _).trans ?_
      simp only [List.append_nil]
      have e1 : tabL m.hb k1 = tabL m.hb (k1 ++ us) := by
        have := htl us hn
        simp only [tabL, List.filterMap_append] at this ⊢
        rw [this, List.append_nil]
      have e2 : tabL m.hb (k2 ++ ws) = tabL m.hb (a2 ++ (k2 ++ ws)) := by
        have := htl a2 hlone
        simp only [tabL, List.filterMap_append] at this ⊢
        rw [this, List.nil_append]
      rw [e1, e2]
      exact (hk.trans hfull).filterMap _
    · refine (LawfulRaw.touch_perm _ _).trans ?_
      simp only [List.append_nil]
      simp only [tabR, List.filterMap_append] at htr ⊢
      rw [htr, List.append_nil]
    · exact (List.pairwise_append.1 (pairwise_ids hapart hfull)).2.1
    · intro q hm
      exact hr.bound q (hrec q (hfull.mem_iff.2 (List.mem_append_right _ hm)))
    · intro q hm
      exact hr.nonempty q (hrec q (hfull.mem_iff.2 (List.mem_append_right _ hm)))
    · rw [hmapped1]
      simp only [hmapped2]
      rw [hk2, ents, List.map_append]
      exact List.Perm.append_left _ hfil.symm

theorem pairsOf_filter' (qs : List (Rec L R)) : pairsOf (qs.filter fun q => isPair q.e) = pairsOf qs := by
  rw [pairsOf, pairsOf, List.filterMap_filter]
  refine congrArg (List.filterMap · qs) (funext fun q => ?_)
  cases q.e <;> rfl

/-! ### The retain family -/

/-- the removal one remembered key causes -/
def dropKey (m : PartialMap L R) : Option UInt64 × Option UInt64 × Nat → PartialMap L R
  | (some l, some r, id) => (m.removeViaHashesAndId l r id).2
  | (some l, none, id) => match m.left.removeEntry l (justId id) with | none => m | some (_, t) => { m with left := t }
  | (none, some r, id) => match m.right.removeEntry r (justId id) with | none => m | some (_, t) => { m with right := t }
  | (none, none, _) => m

theorem retainDrop_fold {hb : BuildHasher L R} {ds : List (Rec L R)} (h : ∀ p ∈ ds, p.e ≠ neither) (m : PartialMap L R) :
    m.retainDrop (ds.map (keyOf hb)) = .ok (ds.foldl (fun m p => dropKey m (keyOf hb p)) m) := by
  induction ds generalizing m with
  | nil => rfl
  | cons p ds ih =>
    have hp := h p (by simp)
    have ih := ih fun x hx => h x (List.mem_cons_of_mem _ hx)
    rw [List.foldl_cons, ← ih]
    obtain ⟨e, i⟩ := p
    cases e with
    | neither => exact absurd rfl hp
    | _ => rfl

theorem retainUnpairedDrop_fold {hb : BuildHasher L R} {ds : List (Rec L R)}
    (h : ∀ p ∈ ds, p.e ≠ neither ∧ isPair p.e = false) (m : PartialMap L R) :
    m.retainUnpairedDrop (ds.map (keyOf hb)) = .ok (ds.foldl (fun m p => dropKey m (keyOf hb p)) m) := by
  induction ds generalizing m with
  | nil => rfl
  | cons p ds ih =>
    have hp := h p (by simp)
    have ih := ih fun x hx => h x (List.mem_cons_of_mem _ hx)
    rw [List.foldl_cons, ← ih]
    obtain ⟨e, i⟩ := p
    cases e with
    | neither => exact absurd rfl hp.1
    | someBoth => cases hp.2
    | _ => rfl

/-- removing remembered records one after the other: each goes once, those that are no hit stay -/
theorem drops_weak {I : Type} {hb : BuildHasher L R} (rec : I → Rec L R) (hit : Rec L R → Bool) (good : I → Prop)
    (act : PartialMap L R → I → PartialMap L R)
    (hact : ∀ (m : PartialMap L R) ps i, Linked m ps → m.hb = hb → good i → (rec i ∈ ps ∨ ∀ q ∈ ps, (rec i).id ≠ q.id) →
      ∃ qs, Linked (act m i) qs ∧ (act m i).hb = hb ∧
        ((rec i ∈ ps ∧ hit (rec i) = true ∧ ps.Perm (rec i :: qs)) ∨ (¬ (rec i ∈ ps ∧ hit (rec i) = true) ∧ qs = ps)))
    {all gone : List (Rec L R)} (hall : all.Pairwise (·.id ≠ ·.id)) {ds : List I}
    (hds : ∀ i ∈ ds, rec i ∈ all ∧ good i) (h : Linked m ps) (hm : m.hb = hb) (hp : all.Perm (ps ++ gone)) :
    ∃ qs more, Linked (ds.foldl act m) qs ∧ (ds.foldl act m).hb = hb ∧ all.Perm (qs ++ (more ++ gone)) ∧
      (∀ p ∈ more, hit p = true ∧ ∃ i ∈ ds, rec i = p) ∧ ∀ i ∈ ds, hit (rec i) = true → rec i ∈ more ++ gone := by
  induction ds generalizing m ps gone with
  | nil => exact ⟨ps, [], h, hm, hp, by simp, by simp⟩
  | cons i ds ih =>
    obtain ⟨hi, hg⟩ := hds i (by simp)
    have hds' := fun j hj => hds j (List.mem_cons_of_mem _ hj)
    have hor : rec i ∈ ps ∨ ∀ q ∈ ps, (rec i).id ≠ q.id := by
      rcases List.mem_append.1 (hp.mem_iff.1 hi) with hin | hin
      · exact .inl hin
      · refine .inr fun q hq => ?_
        exact ((List.pairwise_append.1 (pairwise_ids hall hp)).2.2 q hq _ hin).symm
    obtain ⟨q1, h1, hb1, hd⟩ := hact m ps i h hm hg hor
    rcases hd with ⟨hin, hh, hpp⟩ | ⟨hno, rfl⟩
    · have hp1 : all.Perm (q1 ++ (rec i :: gone)) :=
        hp.trans ((hpp.append_right gone).trans List.perm_middle.symm)
      obtain ⟨qs, more, h2, hb2, hp2, hm2, hd2⟩ := ih hds' h1 hb1 hp1
      refine ⟨qs, more ++ [rec i], h2, hb2, by simpa using hp2, fun p hpm => ?_, fun j hj hjh => ?_⟩
      · rcases List.mem_append.1 hpm with hpm | hpm
        · obtain ⟨h3, j, hj, hjp⟩ := hm2 p hpm
          exact ⟨h3, j, List.mem_cons_of_mem _ hj, hjp⟩
        · cases List.mem_singleton.1 hpm
          exact ⟨hh, i, by simp, rfl⟩
      · rcases List.mem_cons.1 hj with rfl | hj
        · simp
        · have := hd2 j hj hjh
          simpa using this
    · obtain ⟨qs, more, h2, hb2, hp2, hm2, hd2⟩ := ih hds' h1 hb1 hp
      refine ⟨qs, more, h2, hb2, hp2, fun p hpm => ?_, fun j hj hjh => ?_⟩
      · obtain ⟨h3, j, hj, hjp⟩ := hm2 p hpm
        exact ⟨h3, j, List.mem_cons_of_mem _ hj, hjp⟩
      · rcases List.mem_cons.1 hj with rfl | hj
        · rcases List.mem_append.1 (hp.mem_iff.1 hi) with hin | hin
          · exact absurd ⟨hin, hjh⟩ hno
          · exact List.mem_append_right _ hin
        · exact hd2 j hj hjh

/-- nothing is removed under an id that is not there -/
theorem removeVia_miss (h : Linked m ps) {i : Nat} (hi : ∀ q ∈ ps, i ≠ q.id) (a b : UInt64) :
    (m.removeViaHashesAndId a b i).2 = m := by
  have e1 : m.left.removeEntry a (hashAndId b i) = none :=
    RawTable.removeEntry_none fun e he => hidsL b hi e (h.left.mem_iff.1 he)
  have e2 : m.right.removeEntry b (hashAndId a i) = none :=
    RawTable.removeEntry_none fun e he => hidsR a hi e (h.right.mem_iff.1 he)
  simp only [removeViaHashesAndId, e1, e2]

theorem removeVia_hit {a : L} {b : R} {i : Nat} (h : Linked m (⟨someBoth a b, i⟩ :: qs)) :
    Linked (m.removeViaHashesAndId (m.hb.hl a) (m.hb.hr b) i).2 qs := by
  obtain ⟨⟨t1, e1, h1⟩, -⟩ := h.accessL rfl h.partnerL
  obtain ⟨⟨t2, e2, h2⟩, -⟩ := h.accessR rfl h.partnerR
  simp only [removeViaHashesAndId, e1, e2]
  exact h.dropped h1 h2

theorem dropKey_hb (m : PartialMap L R) (k) : (dropKey m k).hb = m.hb := by
  obtain ⟨a, b, i⟩ := k
  cases a <;> cases b <;> simp only [dropKey]
  · split <;> rfl
  · split <;> rfl
  · rfl

theorem dropKey_weak {hb : BuildHasher L R} (m : PartialMap L R) (ps : List (Rec L R)) (p : Rec L R) (h : Linked m ps)
    (hm : m.hb = hb) (hor : p ∈ ps ∨ ∀ q ∈ ps, p.id ≠ q.id) (hne : p.e ≠ neither) :
    ∃ qs, Linked (dropKey m (keyOf hb p)) qs ∧ (dropKey m (keyOf hb p)).hb = hb ∧
      ((p ∈ ps ∧ true = true ∧ ps.Perm (p :: qs)) ∨ (¬ (p ∈ ps ∧ true = true) ∧ qs = ps)) := by
  subst hm
  by_cases hin : p ∈ ps
  · obtain ⟨qs, hq⟩ := perm_cons_of_mem hin
    refine ⟨qs, ?_, dropKey_hb _ _, .inl ⟨hin, rfl, hq⟩⟩
    have h' := h.perm hq
    obtain ⟨e, i⟩ := p
    cases e with
    | neither => exact absurd rfl hne
    | someBoth a b => exact removeVia_hit h'
    | someLeft a =>
      obtain ⟨t1, e1, h1⟩ := RawTable.removeEntry_some (p := justId i) (h := m.hb.hl a) (h'.consL rfl) rfl
        (justId_self _ _ _) (idsL h'.tail)
      simp only [keyOf, leftOf, rightOf, Option.map_some, Option.map_none, dropKey, e1]
      exact h'.dropped h1 (h'.tailR rfl)
    | someRight b =>
      obtain ⟨t1, e1, h1⟩ := RawTable.removeEntry_some (p := justId i) (h := m.hb.hr b) (h'.consR rfl) rfl
        (justId_self _ _ _) (idsR h'.tail)
      simp only [keyOf, leftOf, rightOf, Option.map_some, Option.map_none, dropKey, e1]
      exact h'.dropped (h'.tailL rfl) h1
  · have hi : ∀ q ∈ ps, p.id ≠ q.id := hor.resolve_left hin
    have : dropKey m (keyOf m.hb p) = m := by
      obtain ⟨e, i⟩ := p
      cases e with
      | neither => rfl
      | someBoth a b => exact removeVia_miss h hi _ _
      | someLeft a =>
        have e1 : m.left.removeEntry (m.hb.hl a) (justId i) = none :=
          RawTable.removeEntry_none fun e he => idsL hi e (h.left.mem_iff.1 he)
        simp only [keyOf, leftOf, rightOf, Option.map_some, Option.map_none, dropKey, e1]
      | someRight b =>
        have e1 : m.right.removeEntry (m.hb.hr b) (justId i) = none :=
          RawTable.removeEntry_none fun e he => idsR hi e (h.right.mem_iff.1 he)
        simp only [keyOf, leftOf, rightOf, Option.map_some, Option.map_none, dropKey, e1]
    exact ⟨ps, by rw [this]; exact h, dropKey_hb _ _, .inr ⟨fun hc => hin hc.1, rfl⟩⟩

theorem drops_all (h : Linked m ps) {ds : List (Rec L R)} (hds : ∀ p ∈ ds, p ∈ ps) :
    ∃ qs more, Linked (ds.foldl (fun m' p => dropKey m' (keyOf m.hb p)) m) qs ∧
      (ds.foldl (fun m' p => dropKey m' (keyOf m.hb p)) m).hb = m.hb ∧ ps.Perm (qs ++ more) ∧
      (∀ p ∈ more, p ∈ ds) ∧ ∀ p ∈ ds, p ∈ more := by
  obtain ⟨qs, more, h1, h2, h3, h4, h5⟩ := drops_weak (hb := m.hb) id (fun _ => true) (fun p => p.e ≠ neither)
    (fun m' p => dropKey m' (keyOf m.hb p)) (fun m' ps' p hl hb hg hor => dropKey_weak m' ps' p hl hb hor hg)
    (gone := []) h.ids (ds := ds) (fun p hp => ⟨hds p hp, h.nonempty p (hds p hp)⟩) h rfl (by simp)
  refine ⟨qs, more, h1, h2, by simpa using h3, fun p hp => ?_, fun p hp => by simpa using h5 p hp rfl⟩
  obtain ⟨-, i, hi, rfl⟩ := h4 p hp
  exact hi

theorem retainScan_weak {σ : Type} (h : Linked m ps) (f : σ → OptionalPair L R → Bool × σ) (s : σ)
    (hs : ∀ q ∈ qs, (leftOf q.e).isSome = true) :
    ((∃ e, m.retainScan f (elemsL m.hb qs) s = .error e) ∧ ∃ q ∈ qs, ∃ a, leftOf q.e = some a ∧ NoL (ents ps) a) ∨
    ∃ (ds : List (Rec L R)) (s' : σ), m.retainScan f (elemsL m.hb qs) s = .ok (ds.map (keyOf m.hb), s') ∧
      (∀ p ∈ ds, p ∈ ps ∧ ∃ x ∈ (split f (Iter.collect m (elemsL m.hb qs)) s).1, ShownFrom x p.e) ∧
      ∀ x ∈ (split f (Iter.collect m (elemsL m.hb qs)) s).1, ∃ p ∈ ds, ShownFrom x p.e := by
  induction qs generalizing s with
  | nil => exact .inr ⟨[], s, rfl, by simp, by simp [elemsL, tabL, Iter.collect, split]⟩
  | cons q qs ih =>
    have ih := fun s => ih s (fun x hx => hs x (List.mem_cons_of_mem _ hx))
    obtain ⟨x, hx⟩ := exists_toL (hb := m.hb) (hs q (by simp))
    have hxq := (toL_some hx).2.1
    obtain ⟨y, e, hy, hd⟩ := next_weak h hx (elemsL m.hb qs)
    rw [elemsL_cons hx, Iter.collect, e]
    cases hf : f s y with
    | mk b s' =>
      cases b with
      | false =>
        rcases ih s' with ⟨⟨e', he'⟩, q', hq', hn⟩ | ⟨ds, s'', e', h1, h2⟩
        · exact .inl ⟨⟨e', by simp only [retainScan, e, hf]; exact he'⟩, q', List.mem_cons_of_mem _ hq', hn⟩
        · refine .inr ⟨ds, s'', by simp only [retainScan, e, hf]; exact e', ?_, ?_⟩ <;> simp only [split, hf] <;> assumption
      | true =>
        have ey : y.toPair = (some x.2.value, rightOf y) := by
          rw [← hxq, ← hy]; cases y <;> rfl
        rcases hd with ⟨hg, hn, -⟩ | ⟨p, hp, hsf, z, hz, hg⟩
        · refine .inl ⟨⟨.unwrapNone, ?_⟩, q, by simp, _, hxq, hn⟩
          simp only [retainScan, e, hf, ey, hg, bind, Except.bind]
        · rcases ih s' with ⟨⟨e', he'⟩, q', hq', hn⟩ | ⟨ds, s'', e', h1, h2⟩
          · refine .inl ⟨⟨e', ?_⟩, q', List.mem_cons_of_mem _ hq', hn⟩
            simp only [retainScan, e, hf, ey, hg, bind, Except.bind, pure, Except.pure, he']
          · refine .inr ⟨p :: ds, s'', ?_, fun p' hp' => ?_, fun x' hx' => ?_⟩
            · have hk : keyOf m.hb p = (some (m.hb.hl x.2.value), (rightOf y).map m.hb.hr, z.2.id) := by
                obtain ⟨a, ha, hla, rfl⟩ := hsf
                have : a = x.2.value := by rw [hy, hxq] at ha; cases ha; rfl
                subst this
                rw [(toL_some hz).1]
                rcases hasL_cases hla with ⟨c, hc, hl⟩ | ⟨c, d, hc, hl⟩ <;>
                  simp [keyOf, hc, leftOf, rightOf, setLeft, m.hb.hl_congr _ _ hl]
              simp only [retainScan, e, hf, ey, hg, bind, Except.bind, pure, Except.pure, e', List.map_cons, hk, Option.map_some]
            · simp only [split, hf]
              rcases List.mem_cons.1 hp' with rfl | hp'
              · exact ⟨hp, y, by simp, hsf⟩
              · obtain ⟨h3, x', hx', h4⟩ := h1 p' hp'
                exact ⟨h3, x', List.mem_cons_of_mem _ hx', h4⟩
            · simp only [split, hf] at hx'
              rcases List.mem_cons.1 hx' with rfl | hx'
              · exact ⟨p, by simp, hsf⟩
              · obtain ⟨p', hp', h4⟩ := h2 x' hx'
                exact ⟨p', List.mem_cons_of_mem _ hp', h4⟩

theorem retain_weak {σ : Type} (h : Linked m ps) (f : σ → OptionalPair L R → Bool × σ) (s : σ) :
    ((∃ e, m.retain f s = .error e) ∧ ∃ e ∈ ents ps, ∃ a, leftOf e = some a ∧ (a == a) = false) ∨
    ∃ s' m' qs ds d, m.retain f s = .ok (s', m') ∧ Linked m' qs ∧ m'.hb = m.hb ∧ Seen (ents ps) ds ∧
      (ents ps).Perm (ents qs ++ d) ∧ (∀ e ∈ d, ∃ x ∈ (split f ds s).1, ShownFrom x e) ∧
      ∀ x ∈ (split f ds s).1, ∃ e ∈ d, ShownFrom x e := by
  obtain ⟨qs, us, hp, hr, he, hs, hn⟩ := h.ordered
  rcases retainScan_weak h f s hs with ⟨⟨e, he'⟩, q, hq, a, ha, hna⟩ | ⟨ds, s', e, h1, h2⟩
  · have hmem : q.e ∈ ents ps := List.mem_map.2 ⟨q, hp.mem_iff.2 (List.mem_append_left _ hq), rfl⟩
    refine .inl ⟨⟨e, by simp only [retain, iter_todo he, he', bind, Except.bind]⟩, q.e, hmem, a, ha, ?_⟩
    rw [← hasL_eq ha]
    exact hna _ hmem
  · obtain ⟨ks, more, h3, h4, h5, h6, h7⟩ := drops_all h (ds := ds) fun p hp => (h1 p hp).1
    refine .inr ⟨s', _, ks, m.iterList, ents more, ?_, h3, h4, iterList_weak h, by simpa [ents] using h5.map Rec.e, ?_, ?_⟩
    · simp only [retain, iter_todo he, e, bind, Except.bind,
        retainDrop_fold (hb := m.hb) (fun p hp => h.nonempty p (h1 p hp).1)]
      rfl
    · intro e' he'
      obtain ⟨p, hpm, rfl⟩ := List.mem_map.1 he'
      rw [iterList, iter_todo he]
      exact (h1 p (h6 p hpm)).2
    · intro x hx
      rw [iterList, iter_todo he] at hx
      obtain ⟨p, hpd, hsf⟩ := h2 x hx
      exact ⟨p.e, List.mem_map.2 ⟨p, h7 p hpd, rfl⟩, hsf⟩

/-! #### retain_paired -/

/-- what `retain_paired` remembers: a record and two hashes -/
structure Noted (hb : BuildHasher L R) (i : Rec L R × UInt64 × UInt64) (a : L) : Prop where
  left : leftOf i.1.e = some a
  hl : i.2.1 = hb.hl a
  hr : ∀ b, rightOf i.1.e = some b → i.2.2 = hb.hr b

theorem paired_act {hb : BuildHasher L R} (m : PartialMap L R) (ps : List (Rec L R)) (i : Rec L R × UInt64 × UInt64)
    (h : Linked m ps) (hm : m.hb = hb) (hg : ∃ a, Noted hb i a) (hor : i.1 ∈ ps ∨ ∀ q ∈ ps, i.1.id ≠ q.id) :
    ∃ qs, Linked (m.removeViaHashesAndId i.2.1 i.2.2 i.1.id).2 qs ∧ (m.removeViaHashesAndId i.2.1 i.2.2 i.1.id).2.hb = hb ∧
      ((i.1 ∈ ps ∧ isPair i.1.e = true ∧ ps.Perm (i.1 :: qs)) ∨ (¬ (i.1 ∈ ps ∧ isPair i.1.e = true) ∧ qs = ps)) := by
  subst hm
  obtain ⟨a, hg⟩ := hg
  by_cases hin : i.1 ∈ ps
  · obtain ⟨qs, hq⟩ := perm_cons_of_mem hin
    have h' := h.perm hq
    obtain ⟨⟨e, i⟩, x, y⟩ := i
    have h1 := hg.left
    have h2 := hg.hl
    cases e with
    | neither => cases h1
    | someRight => cases h1
    | someBoth a' b =>
      cases h1
      have h3 := hg.hr b rfl
      cases h2; cases h3
      exact ⟨qs, removeVia_hit h', rfl, .inl ⟨hin, rfl, hq⟩⟩
    | someLeft a' =>
      cases h1; cases h2
      have e1 : m.left.removeEntry (m.hb.hl a) (hashAndId y i) = none := by
        refine RawTable.removeEntry_none fun e he => ?_
        rcases List.mem_cons.1 ((h'.consL rfl).mem_iff.1 he) with rfl | he
        · simp [hashAndId]
        · exact hidsL _ h'.tail e he
      have e2 : m.right.removeEntry y (hashAndId (m.hb.hl a) i) = none :=
        RawTable.removeEntry_none fun e he => hidsR _ h'.tail e ((h'.tailR rfl).mem_iff.1 he)
      have : (m.removeViaHashesAndId (m.hb.hl a) y i).2 = m := by simp only [removeViaHashesAndId, e1, e2]
      simp only [this]
      exact ⟨ps, h, trivial, .inr ⟨fun hc => Bool.noConfusion hc.2, rfl⟩⟩
  · have := removeVia_miss h (hor.resolve_left hin) i.2.1 i.2.2
    rw [this]
    exact ⟨ps, h, rfl, .inr ⟨fun hc => hin hc.1, rfl⟩⟩

theorem retainPairedScan_weak {σ : Type} (h : Linked m ps) (f : σ → L → R → Bool × σ) (s : σ)
    (hq : ∀ q ∈ qs, q ∈ ps) (hs : ∀ q ∈ qs, isPair q.e = true)
    (hsane : ∀ a b a' b' d, (ents ps).Perm (someBoth a b :: someBoth a' b' :: d) → (a == a') = true → m.hb.hr b = m.hb.hr b') :
    ((∃ e, m.retainPairedScan f (pairsOf qs) s = .error e) ∧
      ∃ e ∈ ents ps, isPair e = true ∧ ∃ a, leftOf e = some a ∧ (a == a) = false) ∨
    ∃ (ds : List (Rec L R × UInt64 × UInt64)) (s' : σ),
      m.retainPairedScan f (pairsOf qs) s = .ok (ds.map fun i => (i.2.1, i.2.2, i.1.id), s') ∧
      (∀ i ∈ ds, i.1 ∈ ps ∧ (∃ a, Noted m.hb i a) ∧
        ∃ x ∈ (split (fun s p => f s p.1 p.2) (pairsOf qs) s).1, hasL x.1 i.1.e = true) ∧
      ∀ x ∈ (split (fun s p => f s p.1 p.2) (pairsOf qs) s).1, ∃ i ∈ ds, hasL x.1 i.1.e = true := by
  induction qs generalizing s with
  | nil => exact .inr ⟨[], s, rfl, by simp, by simp [pairsOf, split]⟩
  | cons q qs ih =>
    have ih := fun s => ih s (fun x hx => hq x (List.mem_cons_of_mem _ hx)) (fun x hx => hs x (List.mem_cons_of_mem _ hx))
    have hqp := hq q (by simp)
    have hqs := hs q (by simp)
    obtain ⟨e, i⟩ := q
    cases e with
    | neither => cases hqs
    | someLeft => cases hqs
    | someRight => cases hqs
    | someBoth a b =>
      have hc : pairsOf (⟨someBoth a b, i⟩ :: qs) = (a, b) :: pairsOf qs := rfl
      rw [hc]
      cases hf : f s a b with
      | mk x s' =>
        cases x with
        | false =>
          rcases ih s' with ⟨⟨e', he'⟩, hn⟩ | ⟨ds, s'', e', h1, h2⟩
          · exact .inl ⟨⟨e', by simp only [retainPairedScan, hf]; exact he'⟩, hn⟩
          · refine .inr ⟨ds, s'', by simp only [retainPairedScan, hf]; exact e', ?_, ?_⟩ <;> simp only [split, hf] <;> assumption
        | true =>
          rcases getRight_weak h a with ⟨-, hg, hn⟩ | ⟨p, hp, hl, -, z, hz, hg⟩
          · refine .inl ⟨⟨.unwrapNone, by simp only [retainPairedScan, hf, hg]⟩, someBoth a b, List.mem_map.2 ⟨_, hqp, rfl⟩, rfl, a, rfl, ?_⟩
            exact hn _ hqp
          · rcases ih s' with ⟨⟨e', he'⟩, hn⟩ | ⟨ds, s'', e', h1, h2⟩
            · exact .inl ⟨⟨e', by simp only [retainPairedScan, hf, hg, he', bind, Except.bind]⟩, hn⟩
            · refine .inr ⟨(p, m.hb.hl a, m.hb.hr b) :: ds, s'', ?_, fun j hj => ?_, fun x' hx' => ?_⟩
              · simp only [retainPairedScan, hf, hg, e', bind, Except.bind, (toL_some hz).1]; rfl
              · simp only [split, hf]
                rcases List.mem_cons.1 hj with rfl | hj
                · refine ⟨hp, ?_, (a, b), by simp, hl⟩
                  obtain ⟨e, j⟩ := p
                  rcases hasL_cases hl with ⟨c, rfl, hl'⟩ | ⟨c, d, rfl, hl'⟩
                  · exact ⟨c, rfl, m.hb.hl_congr _ _ hl', fun b hb => by cases hb⟩
                  · refine ⟨c, rfl, m.hb.hl_congr _ _ hl', fun b' hb' => ?_⟩
                    cases hb'
                    by_cases hid : j = i
                    · cases h.inj hp hqp hid; rfl
                    · obtain ⟨k1, hk1⟩ := perm_cons_of_mem hqp
                      have hin : (⟨someBoth c d, j⟩ : Rec L R) ∈ k1 := by
                        rcases List.mem_cons.1 (hk1.mem_iff.1 hp) with hc | hc
                        · cases hc; exact absurd rfl hid
                        · exact hc
                      obtain ⟨k2, hk2⟩ := perm_cons_of_mem hin
                      exact hsane a b c d (ents k2) ((hk1.trans (hk2.cons _)).map Rec.e) hl'
                · obtain ⟨h3, h4, x', hx', h5⟩ := h1 j hj
                  exact ⟨h3, h4, x', List.mem_cons_of_mem _ hx', h5⟩
              · simp only [split, hf] at hx'
                rcases List.mem_cons.1 hx' with rfl | hx'
                · exact ⟨_, List.mem_cons_self, hl⟩
                · obtain ⟨p', hp', h4⟩ := h2 x' hx'
                  exact ⟨p', List.mem_cons_of_mem _ hp', h4⟩

theorem retainPaired_weak {σ : Type} (h : Linked m ps) (f : σ → L → R → Bool × σ) (s : σ)
    (hsane : ∀ a b a' b' d, (ents ps).Perm (someBoth a b :: someBoth a' b' :: d) → (a == a') = true → m.hb.hr b = m.hb.hr b') :
    ((∃ e, m.retainPaired f s = .error e) ∧
      ∃ e ∈ ents ps, isPair e = true ∧ ∃ a, leftOf e = some a ∧ (a == a) = false) ∨
    ∃ s' m' qs ds d, m.retainPaired f s = .ok (s', m') ∧ Linked m' qs ∧ m'.hb = m.hb ∧ ds.Perm ((ents ps).filterMap pairOf) ∧
      (ents ps).Perm (ents qs ++ d) ∧
      (∀ e ∈ d, isPair e = true ∧ ∃ x ∈ (split (fun s p => f s p.1 p.2) ds s).1, hasL x.1 e = true) ∧
      ∀ x ∈ (split (fun s p => f s p.1 p.2) ds s).1, ∃ e ∈ ents ps, hasL x.1 e = true ∧ (isPair e = true → e ∈ d) := by
  obtain ⟨qs, us, hp, hr, he, hs, hn⟩ := h.ordered
  have hpairs : ∀ q ∈ qs.filter (fun q => isPair q.e), isPair q.e = true := fun q hq => (List.mem_filter.1 hq).2
  have hsub : ∀ q ∈ qs.filter (fun q => isPair q.e), q ∈ ps :=
    fun q hq => hp.mem_iff.2 (List.mem_append_left _ (List.mem_filter.1 hq).1)
  have hscan := retainPairedScan_weak h f s hsub hpairs hsane
  rw [pairsOf_filter'] at hscan
  rcases hscan with ⟨⟨e, he'⟩, hbad⟩ | ⟨ds, s', e, h1, h2⟩
  · refine .inl ⟨⟨e, ?_⟩, hbad⟩
    rw [retainPaired, iterPairedList_weak_eq hr he hs]
    simp only [bind, Except.bind, he']
  · obtain ⟨ks, more, h3, h4, h5, h6, h7⟩ := drops_weak (hb := m.hb) (fun i : Rec L R × UInt64 × UInt64 => i.1) (fun p => isPair p.e)
      (fun i => ∃ a, Noted m.hb i a) (fun m' i => (m'.removeViaHashesAndId i.2.1 i.2.2 i.1.id).2) paired_act
      (gone := []) h.ids (ds := ds) (fun i hi => ⟨(h1 i hi).1, (h1 i hi).2.1⟩) h rfl (by simp)
    refine .inr ⟨s', _, ks, pairsOf qs, ents more, ?_, h3, h4, pairsOf_perm (hp.map Rec.e).symm hn,
      by simpa [ents] using h5.map Rec.e, ?_, ?_⟩
    · rw [retainPaired, iterPairedList_weak_eq hr he hs]
      simp only [bind, Except.bind, e, retainPairedDrop, List.foldl_map]; rfl
    · intro e' he'
      obtain ⟨p, hpm, rfl⟩ := List.mem_map.1 he'
      obtain ⟨h8, i, hi, rfl⟩ := h6 p hpm
      exact ⟨h8, (h1 i hi).2.2⟩
    · intro x hx
      obtain ⟨i, hi, hl⟩ := h2 x hx
      refine ⟨i.1.e, List.mem_map.2 ⟨i.1, (h1 i hi).1, rfl⟩, hl, fun hpr => ?_⟩
      have := h7 i hi hpr
      exact List.mem_map.2 ⟨i.1, by simpa using this, rfl⟩

/-! #### retain_unpaired -/

theorem Linked.lones (h : Linked m ps) : ∃ qs us : List (Rec L R), ps.Perm (qs ++ us) ∧
    m.iterUnpairedList = qs.map Rec.e ∧ (∀ q ∈ qs, isPair q.e = false) ∧ ∀ u ∈ us, isPair u.e = true := by
  have hl := iterUnpairedList_weak h
  rw [ents, List.filter_map] at hl
  obtain ⟨qs, hq, he⟩ := perm_map_inv hl
  have hfull : ps.Perm (qs ++ ps.filter fun q => isPair q.e) := by
    have := List.filter_append_perm (fun q : Rec L R => isPair q.e) ps
    exact this.symm.trans (List.perm_append_comm.trans (hq.append_right _))
  refine ⟨qs, ps.filter fun q => isPair q.e, hfull, he, ?_, ?_⟩
  · intro q hm
    have := (List.mem_filter.1 (hq.mem_iff.2 hm)).2
    simpa using this
  · intro q hm; exact (List.mem_filter.1 hm).2

theorem retainUnpairedScan_weak {σ : Type} (h : Linked m ps) (f : σ → OptionalPair L R → Bool × σ) (s : σ)
    (hq : ∀ q ∈ qs, q ∈ ps) (hs : ∀ q ∈ qs, isPair q.e = false)
    (hsane : ∀ x e, x ∈ ents ps → e ∈ ents ps → Matches x e → isPair e = false) :
    ((∃ e, m.retainUnpairedScan f (qs.map Rec.e) s = .error e) ∧ ∃ e ∈ ents ps, isPair e = false ∧ ¬ Matches e e) ∨
    ∃ (ds : List (Rec L R)) (s' : σ), m.retainUnpairedScan f (qs.map Rec.e) s = .ok (ds.map (keyOf m.hb), s') ∧
      (∀ p ∈ ds, p ∈ ps ∧ isPair p.e = false ∧ ∃ x ∈ (split f (qs.map Rec.e) s).1, Matches x p.e) ∧
      ∀ x ∈ (split f (qs.map Rec.e) s).1, ∃ p ∈ ds, Matches x p.e := by
  induction qs generalizing s with
  | nil => exact .inr ⟨[], s, rfl, by simp, by simp [split]⟩
  | cons q qs ih =>
    have ih := fun s => ih s (fun x hx => hq x (List.mem_cons_of_mem _ hx)) (fun x hx => hs x (List.mem_cons_of_mem _ hx))
    have hqp := hq q (by simp)
    have hqs := hs q (by simp)
    have hne := h.nonempty q hqp
    have hqe : q.e ∈ ents ps := List.mem_map.2 ⟨q, hqp, rfl⟩
    cases hf : f s q.e with
    | mk x s' =>
      cases x with
      | false =>
        rcases ih s' with ⟨⟨e', he'⟩, hn⟩ | ⟨ds, s'', e', h1, h2⟩
        · exact .inl ⟨⟨e', by simp only [List.map_cons, retainUnpairedScan, hf]; exact he'⟩, hn⟩
        · refine .inr ⟨ds, s'', by simp only [List.map_cons, retainUnpairedScan, hf]; exact e', ?_, ?_⟩ <;>
            simp only [List.map_cons, split, hf] <;> assumption
      | true =>
        have key : (∃ e, m.retainUnpairedScan f (q.e :: qs.map Rec.e) s = .error e ∧ ¬ Matches q.e q.e) ∨
            ∃ p ∈ ps, Matches q.e p.e ∧ m.retainUnpairedScan f (q.e :: qs.map Rec.e) s =
              (do let (d, st) ← m.retainUnpairedScan f (qs.map Rec.e) s'
                  return (keyOf m.hb p :: d, st)) := by
          obtain ⟨e, i⟩ := q
          cases e with
          | neither => exact absurd rfl hne
          | someBoth => cases hqs
          | someLeft a =>
            rcases h.probeL a with ⟨e, hn⟩ | ⟨p, k, x, hk, hl, hx, e⟩
            · refine .inl ⟨.unwrapNone, by simp only [retainUnpairedScan, hf, e], ?_⟩
              rintro (⟨b, hb, hm⟩ | ⟨b, hb, hm⟩)
              · cases hb
                rw [hn _ hqp] at hm; cases hm
              · cases hb
            · have hm : Matches (someLeft a) p.e := .inl ⟨a, rfl, hl⟩
              have hpm := hk.mem_iff.2 List.mem_cons_self
              refine .inr ⟨p, hpm, hm, ?_⟩
              have hlone := hsane _ p.e hqe (List.mem_map.2 ⟨p, hpm, rfl⟩) hm
              have hk : keyOf m.hb p = (some (m.hb.hl a), none, x.2.id) := by
                rw [(toL_some hx).1]
                rcases hasL_cases hl with ⟨c, hc, hl'⟩ | ⟨c, d, hc, -⟩
                · simp [keyOf, hc, leftOf, rightOf, m.hb.hl_congr _ _ hl']
                · rw [hc] at hlone; cases hlone
              simp only [retainUnpairedScan, hf, e, hk]
          | someRight b =>
            rcases h.probeR b with ⟨e, hn⟩ | ⟨p, k, x, hk, hr, hx, e⟩
            · refine .inl ⟨.unwrapNone, by simp only [retainUnpairedScan, hf, e], ?_⟩
              rintro (⟨b, hb, hm⟩ | ⟨b, hb, hm⟩)
              · cases hb
              · cases hb
                rw [hn _ hqp] at hm; cases hm
            · have hm : Matches (someRight b) p.e := .inr ⟨b, rfl, hr⟩
              have hpm := hk.mem_iff.2 List.mem_cons_self
              refine .inr ⟨p, hpm, hm, ?_⟩
              have hlone := hsane _ p.e hqe (List.mem_map.2 ⟨p, hpm, rfl⟩) hm
              have hk : keyOf m.hb p = (none, some (m.hb.hr b), x.2.id) := by
                rw [(toR_some hx).1]
                rcases hasR_cases hr with ⟨c, hc, hl'⟩ | ⟨c, d, hc, -⟩
                · simp [keyOf, hc, leftOf, rightOf, m.hb.hr_congr _ _ hl']
                · rw [hc] at hlone; cases hlone
              simp only [retainUnpairedScan, hf, e, hk]
        rw [List.map_cons]
        rcases key with ⟨e, he, hno⟩ | ⟨p, hp, hm, he⟩
        · exact .inl ⟨⟨e, he⟩, q.e, hqe, hqs, hno⟩
        · rcases ih s' with ⟨⟨e', he'⟩, hn⟩ | ⟨ds, s'', e', h1, h2⟩
          · exact .inl ⟨⟨e', by rw [he, he']; rfl⟩, hn⟩
          · refine .inr ⟨p :: ds, s'', by rw [he, e']; rfl, fun p' hp' => ?_, fun x' hx' => ?_⟩
            · simp only [split, hf]
              rcases List.mem_cons.1 hp' with rfl | hp'
              · exact ⟨hp, hsane _ _ hqe (List.mem_map.2 ⟨_, hp, rfl⟩) hm, q.e, by simp, hm⟩
              · obtain ⟨h3, h4, x', hx', h5⟩ := h1 p' hp'
                exact ⟨h3, h4, x', List.mem_cons_of_mem _ hx', h5⟩
            · simp only [split, hf] at hx'
              rcases List.mem_cons.1 hx' with rfl | hx'
              · exact ⟨p, by simp, hm⟩
              · obtain ⟨p', hp', h4⟩ := h2 x' hx'
                exact ⟨p', List.mem_cons_of_mem _ hp', h4⟩

theorem retainUnpaired_weak {σ : Type} (h : Linked m ps) (f : σ → OptionalPair L R → Bool × σ) (s : σ)
    (hsane : ∀ x e, x ∈ ents ps → e ∈ ents ps → Matches x e → isPair e = false) :
    ((∃ e, m.retainUnpaired f s = .error e) ∧ ∃ e ∈ ents ps, isPair e = false ∧ ¬ Matches e e) ∨
    ∃ s' m' qs ds d, m.retainUnpaired f s = .ok (s', m') ∧ Linked m' qs ∧ m'.hb = m.hb ∧
      ds.Perm ((ents ps).filter fun e => !isPair e) ∧ (ents ps).Perm (ents qs ++ d) ∧
      (∀ e ∈ d, isPair e = false ∧ ∃ x ∈ (split f ds s).1, Matches x e) ∧ ∀ x ∈ (split f ds s).1, ∃ e ∈ d, Matches x e := by
  obtain ⟨qs, us, hp, he, hs, hn⟩ := h.lones
  rcases retainUnpairedScan_weak h f s (fun q hq => hp.mem_iff.2 (List.mem_append_left _ hq)) hs hsane with
    ⟨⟨e, he'⟩, hbad⟩ | ⟨ds, s', e, h1, h2⟩
  · exact .inl ⟨⟨e, by rw [retainUnpaired, he]; simp only [bind, Except.bind, he']⟩, hbad⟩
  · obtain ⟨ks, more, h3, h4, h5, h6, h7⟩ := drops_all h (ds := ds) fun p hp => (h1 p hp).1
    refine .inr ⟨s', _, ks, m.iterUnpairedList, ents more, ?_, h3, h4, iterUnpairedList_weak h, by simpa [ents] using h5.map Rec.e, ?_, ?_⟩
    · rw [retainUnpaired, he]
      simp only [e, bind, Except.bind,
        retainUnpairedDrop_fold (hb := m.hb) (fun p hp => ⟨h.nonempty p (h1 p hp).1, (h1 p hp).2.1⟩)]
      rfl
    · intro e' he'
      obtain ⟨p, hpm, rfl⟩ := List.mem_map.1 he'
      rw [he]
      exact (h1 p (h6 p hpm)).2
    · intro x hx
      rw [he] at hx
      obtain ⟨p, hpd, hsf⟩ := h2 x hx
      exact ⟨p.e, List.mem_map.2 ⟨p, h7 p hpd, rfl⟩, hsf⟩

end Verif.PartialMap
