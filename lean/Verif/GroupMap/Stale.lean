import Verif.GroupMap.Simulation
/-!
`swap_right` and `swap_right_remove` on a right item with left items.  The left items then belong to the new right
item but still hold the id of the old one (`Stale`).  Here: what the two calls do on the level of records, and the
calls that still work afterwards.
-/
set_option linter.unusedSectionVars false
set_option linter.unusedSimpArgs false
namespace Verif.GroupMap
open GroupSpec
open CycleSpec (split)

variable [RawImpl] [LawfulRaw] {L R : Type} [BEq L] [BEq R] [EquivBEq L] [EquivBEq R]
variable {G : Prop} {m : GroupMap L R} {c : Contents L R} {ls : List (LRec L R)} {rs : List (RRec R)} {y : RRec R}

/-- the left item belongs to the right item `new` with id `i`; the stored right id stays -/
def moved (new : R) (i : Nat) (x : LRec L R) : LRec L R := { x with r := new, own := i }

section
variable {hb : BuildHasher L R} {lc rc : Nat}

theorem rehashAll_ok (new : R) (i : Nat) (xs ls : List (LRec L R)) (t : RawTable (LeftItem L))
    (ht : t.entries.Perm ((xs ++ ls).map (toL hb))) (ha : (xs ++ ls).Pairwise ApartL) :
    ∃ t', rehashAll (hb.hr new) t (xs.map (key hb)) = .ok t' ∧
      t'.entries.Perm ((xs.map (moved new i) ++ ls).map (toL hb)) := by
  induction xs generalizing t ls with
  | nil => exact ⟨t, rfl, ht⟩
  | cons x xs ih =>
    rw [List.cons_append] at ha
    have h2 := List.pairwise_cons.1 ha
    obtain ⟨w, e1, p1⟩ := getMutL_id (hb := hb) (x := x) (ls := xs ++ ls) (by simpa using ht) fun a ha => (h2.1 a ha).1.symm
    have hm : (xs ++ moved new i x :: ls).Perm (moved new i x :: (xs ++ ls)) := List.perm_middle
    obtain ⟨t2, e2, p2⟩ := ih (moved new i x :: ls) (w { (toL hb x).2 with hash := hb.hr new })
      ((p1 _).trans ((hm.map (toL hb)).symm))
      ((hm.pairwise_iff (fun h => h.symm)).2 (List.pairwise_cons.2 ⟨fun a ha => h2.1 a ha, h2.2⟩))
    refine ⟨t2, ?_, ?_⟩
    · simp only [List.map_cons, rehashAll, key] at e2 ⊢
      simp only [e1]
      exact e2
    · refine p2.trans (List.Perm.map _ ?_)
      rw [List.map_cons, List.cons_append]
      exact List.perm_middle

/-- a right item with a given id and no left items -/
theorem WF.addRightId (h : WF hb lc rc ls rs) {r : R} (hr : ∀ y ∈ rs, (r == y.r) = false) {s : PairSet}
    (hs : s.entries = []) {i rc' : Nat} (hi : ∀ a ∈ rs, a.id ≠ i) (hlt : i < rc') (hle : rc ≤ rc')
    (hx : ∀ x ∈ ls, x.own ≠ i) : WF hb lc rc' ls (⟨r, i, s⟩ :: rs) where
  apartL := h.apartL
  apartR := List.pairwise_cons.2 ⟨fun a ha => ⟨(hi a ha).symm, hr a ha⟩, h.apartR⟩
  boundL := h.boundL
  boundR := by
    intro y hy
    rcases List.mem_cons.1 hy with rfl | hy
    · exact hlt
    · have := h.boundR y hy; omega
  owner := fun x hx => by
    obtain ⟨y, hy, e⟩ := h.owner x hx
    exact ⟨y, List.mem_cons_of_mem _ hy, e⟩
  pairs := by
    intro y hy
    rcases List.mem_cons.1 hy with rfl | hy
    · simp only [hs]
      rw [show mine ls i = [] from ?_]; · simp
      rw [mine, List.filter_eq_nil_iff]
      intro x hm
      simpa using hx x hm
    · exact h.pairs y hy

/-- the right item `y` without left items receives a list of left items -/
theorem WF.addLefts (qs : List (LRec L R)) (h : WF hb lc rc ls (y :: rs)) (hy : y.pairs.entries = [])
    (hnone : ∀ x ∈ ls, x.own ≠ y.id)
    (hq : (qs ++ ls).Pairwise ApartL) (hlt : ∀ x ∈ qs, x.id < lc) :
    WF hb lc rc (qs.map (moved y.r y.id) ++ ls) (⟨y.r, y.id, ⟨qs.map (key hb), 0⟩⟩ :: rs) := by
  induction qs with
  | nil =>
    have := h.setPairs (s := ⟨[], 0⟩) (by rw [hy])
    exact this
  | cons x qs ih =>
    have h2 := List.pairwise_cons.1 hq
    have ih := ih h2.2 fun a ha => hlt a (List.mem_cons_of_mem _ ha)
    have hap : ∀ a ∈ qs.map (moved y.r y.id) ++ ls, ApartL x a := by
      intro a ha
      rcases List.mem_append.1 ha with ha | ha
      · obtain ⟨b, hb, rfl⟩ := List.mem_map.1 ha
        exact h2.1 b (List.mem_append_left _ hb)
      · exact h2.1 a (List.mem_append_right _ ha)
    exact ih.addLeft (l := x.l) (i := x.id) (j := x.rid) (fun a ha => (hap a ha).2) (fun a ha => (hap a ha).1.symm)
      (hlt x List.mem_cons_self) (Nat.le_refl _) (s := ⟨(x :: qs).map (key hb), 0⟩) (.refl _)

/-- a new right item with a list of left items -/
theorem WF.receive (h : WF hb lc rc ls rs) {new : R} (hn : ∀ a ∈ rs, (new == a.r) = false)
    {qs : List (LRec L R)} (hq : (qs ++ ls).Pairwise ApartL) (hlt : ∀ x ∈ qs, x.id < lc) {s : PairSet}
    (hs : s.entries.Perm (qs.map (key hb))) :
    WF hb lc (rc + 1) (qs.map (moved new rc) ++ ls) (⟨new, rc, s⟩ :: rs) := by
  have h2 := h.addRight hn (s := ⟨[], 0⟩) rfl
  refine (WF.addLefts qs h2 rfl (fun x hx => ?_) hq hlt).setPairs hs
  obtain ⟨y, hy, e, -⟩ := h.owner x hx
  have := h.boundR y hy
  simp only; omega

end

theorem mine_perm {qs : List (LRec L R)} {i : Nat} (hq : qs.Perm (mine ls i)) :
    ls.Perm (qs ++ ls.filter fun x => !(x.own == i)) :=
  (List.filter_append_perm (fun x : LRec L R => x.own == i) ls).symm.trans (hq.symm.append_right _)

/-- what `swap_right` does to the tables if `old` is there -/
theorem swapRight_raw (h : Rep m ls (y :: rs)) {old : R} (hr : (old == y.r) = true) (new : R) :
    ∃ (qs : List (LRec L R)) (t1 : RawTable (LeftItem L)) (t2 : RawTable (RightItem R)) (s s0 : PairSet),
      m.swapRight old new = .ok { m with left := t1, right := t2, rightCounter := m.rightCounter + 1 } ∧
      qs.Perm (mine ls y.id) ∧ s.entries = qs.map (key m.hb) ∧ s0.entries = [] ∧
      t1.entries.Perm ((qs.map (moved new m.rightCounter) ++ ls.filter fun x => !(x.own == y.id)).map (toL m.hb)) ∧
      t2.entries.Perm ((⟨new, m.rightCounter, s⟩ :: ⟨y.r, y.id, s0⟩ :: rs).map (toR m.hb)) := by
  obtain ⟨w, e, p⟩ := getMutR_eq h.consR hr (h.wf.othersR hr)
  obtain ⟨qs, hq, e1⟩ := perm_map_inv ((PairSet.collect_perm y.pairs).trans (h.wf.pairs y List.mem_cons_self))
  have hp := mine_perm hq.symm
  obtain ⟨t1, e2, p1⟩ := rehashAll_ok (hb := m.hb) new m.rightCounter qs _ m.left (h.left.trans (hp.map _))
    ((hp.pairwise_iff (fun h => h.symm)).1 h.wf.apartL)
  refine ⟨qs, t1, (w ⟨y.r, y.pairs.clear, y.id⟩).insert (m.hb.hr new) ⟨new, y.pairs.collect, m.rightCounter⟩ (·.hashWith m.hb.hr),
    y.pairs.collect, y.pairs.clear, ?_, hq.symm, e1, RawTable.clear_entries _, p1, ?_⟩
  · simp only [GroupMap.swapRight, e, toR, e1, e2, bind, Except.bind, pure, Except.pure]
  · exact (RawTable.insert_perm _ _ _ (hashesR (rs := ⟨y.r, y.id, y.pairs.clear⟩ :: rs) (p _))).trans ((p _).cons _)

/-- what `swap_right_remove` does to the tables if `old` is there -/
theorem swapRightRemove_raw (h : Rep m ls (y :: rs)) {old : R} (hr : (old == y.r) = true) (new : R) :
    ∃ (qs : List (LRec L R)) (t1 : RawTable (LeftItem L)) (t2 : RawTable (RightItem R)) (s : PairSet),
      m.swapRightRemove old new =
        .ok (some y.r, { m with left := t1, right := t2, rightCounter := m.rightCounter + 1 }) ∧
      qs.Perm (mine ls y.id) ∧ s.entries = qs.map (key m.hb) ∧
      t1.entries.Perm ((qs.map (moved new m.rightCounter) ++ ls.filter fun x => !(x.own == y.id)).map (toL m.hb)) ∧
      t2.entries.Perm ((⟨new, m.rightCounter, s⟩ :: rs).map (toR m.hb)) := by
  obtain ⟨t, e, p⟩ := removeR_eq h.consR hr (h.wf.othersR hr)
  obtain ⟨qs, hq, e1⟩ := perm_map_inv ((PairSet.collect_perm y.pairs).trans (h.wf.pairs y List.mem_cons_self))
  have hp := mine_perm hq.symm
  obtain ⟨t1, e2, p1⟩ := rehashAll_ok (hb := m.hb) new m.rightCounter qs _ m.left (h.left.trans (hp.map _))
    ((hp.pairwise_iff (fun h => h.symm)).1 h.wf.apartL)
  refine ⟨qs, t1, t.insert (m.hb.hr new) ⟨new, y.pairs.collect, m.rightCounter⟩ (·.hashWith m.hb.hr),
    y.pairs.collect, ?_, hq.symm, e1, p1, ?_⟩
  · simp only [GroupMap.swapRightRemove, e, toR, e1, e2, bind, Except.bind, pure, Except.pure]
  · exact (RawTable.insert_perm _ _ _ (hashesR p)).trans (p.cons _)

theorem moved_apart {hb : BuildHasher L R} {lc rc : Nat} (h : WF hb lc rc ls rs) {qs : List (LRec L R)} {i : Nat}
    (hq : qs.Perm (mine ls i)) :
    (qs ++ ls.filter fun x => !(x.own == i)).Pairwise ApartL ∧ ∀ x ∈ qs, x.id < lc :=
  ⟨((mine_perm hq).pairwise_iff (fun h => h.symm)).1 h.apartL, fun x hx => h.boundL x (mem_of_mine hq x hx)⟩

theorem swapRight_wf {hb : BuildHasher L R} {lc rc : Nat} (h : WF hb lc rc ls (y :: rs)) {new : R}
    (hn : ∀ a ∈ y :: rs, (new == a.r) = false) {qs : List (LRec L R)} (hq : qs.Perm (mine ls y.id)) {s s0 : PairSet}
    (hs : s.entries = qs.map (key hb)) (hs0 : s0.entries = []) :
    WF hb lc (rc + 1) (qs.map (moved new rc) ++ ls.filter fun x => !(x.own == y.id))
      (⟨new, rc, s⟩ :: ⟨y.r, y.id, s0⟩ :: rs) := by
  have h1 := h.dropRight.addRightId (r := y.r) (i := y.id) (fun a ha => (h.tailR a ha).2) hs0 h.ridsApart
    (h.boundR y List.mem_cons_self) (Nat.le_refl _) (fun x hx => by
      have := (List.mem_filter.1 hx).2
      simpa using this)
  have ha := moved_apart h hq
  exact h1.receive (forall_cons_with hn) ha.1 ha.2 (.of_eq hs)

theorem swapRightRemove_wf {hb : BuildHasher L R} {lc rc : Nat} (h : WF hb lc rc ls (y :: rs)) {new : R}
    (hn : ∀ a ∈ rs, (new == a.r) = false) {qs : List (LRec L R)} (hq : qs.Perm (mine ls y.id)) {s : PairSet}
    (hs : s.entries = qs.map (key hb)) :
    WF hb lc (rc + 1) (qs.map (moved new rc) ++ ls.filter fun x => !(x.own == y.id)) (⟨new, rc, s⟩ :: rs) := by
  have ha := moved_apart h hq
  exact h.dropRight.receive hn ha.1 ha.2 (.of_eq hs)

theorem moveAll_perm {hb : BuildHasher L R} {lc rc : Nat} (h : WF hb lc rc ls (y :: rs)) (ha : Abs ls (y :: rs) c) {old : R}
    (hr : (old == y.r) = true) (new : R) {qs : List (LRec L R)} (hq : qs.Perm (mine ls y.id)) :
    (moveAll c old new).Perm
      ((qs.map (moved new rc) ++ ls.filter fun x => !(x.own == y.id)).map fun x => (x.l, x.r)) := by
  refine (ha.pairs.map _).trans ?_
  rw [List.map_map]
  refine ((mine_perm hq).map _).trans (.of_eq ?_)
  rw [List.map_append, List.map_append, List.map_map]
  congr 1
  · refine List.map_congr_left fun x hx => ?_
    have hm := List.mem_filter.1 (hq.mem_iff.1 hx)
    have := h.own_iff List.mem_cons_self hr hm.1
    rw [hm.2] at this
    simp [Function.comp, ← this, moved]
  · refine List.map_congr_left fun x hx => ?_
    have hm := List.mem_filter.1 hx
    have := h.own_iff List.mem_cons_self hr hm.1
    have h2 : (x.own == y.id) = false := by simpa using hm.2
    rw [h2] at this
    simp [Function.comp, ← this]

theorem newR (ha : Abs ls rs c) {new : R} (h : findR c new = none) : ∀ a ∈ rs, (new == a.r) = false := by
  intro a hm
  rw [findR, List.find?_eq_none] at h
  simpa using h a.r (ha.rights.mem_iff.2 (List.mem_map.2 ⟨a, hm, rfl⟩))

theorem swapRight_stale (h : ReprG G m c) (old new : R) (hs : findR c old = none ∨ findR c new = none) :
    ∃ m', m.swapRight old new = .ok m' ∧ Stale m' (GroupSpec.swapRight c old new) ∧ Next m m' := by
  cases hR : findR c old with
  | none =>
    obtain ⟨m', e, h', n⟩ := swapRight_refines h old new (.inl hR)
    exact ⟨m', e, h'.stale, n⟩
  | some b =>
    have hnew : findR c new = none := by simpa [hR] using hs
    obtain ⟨ls, rs, h, hf, ha⟩ := h
    rcases h.wf.casesR old with hn | ⟨y, rs', hq, hr, hn⟩
    · rw [ha.findR_none hn] at hR; cases hR
    have h := h.perm (.refl _) hq
    have ha := ha.perm (.refl _) hq
    obtain ⟨qs, t1, t2, s, s0, e, hqs, e1, e2, p1, p2⟩ := swapRight_raw h hr new
    refine ⟨_, e, ⟨_, _, ⟨p1, p2, swapRight_wf h.wf (newR ha hnew) hqs e1 e2⟩, False.elim, ?_⟩, rfl, by simp, by simp⟩
    rw [GroupSpec.swapRight, hR]
    exact ⟨ha.rights.cons _, moveAll_perm h.wf ha hr new hqs⟩

theorem swapRightRemove_stale (h : ReprG G m c) (old new : R)
    (hs : findR c old = none ∨ findR c new = none ∨ (old == new) = true) :
    ∃ m', m.swapRightRemove old new = .ok ((GroupSpec.swapRightRemove c old new).1, m') ∧
      Stale m' (GroupSpec.swapRightRemove c old new).2 ∧ Next m m' := by
  cases hR : findR c old with
  | none =>
    obtain ⟨m', e, h', n⟩ := swapRightRemove_refines h old new (.inl hR)
    exact ⟨m', e, h'.stale, n⟩
  | some b =>
    have hnew : findR c new = none ∨ (old == new) = true := by simpa [hR] using hs
    obtain ⟨ls, rs, h, hf, ha⟩ := h
    rcases h.wf.casesR old with hn | ⟨y, rs', hq, hr, hn⟩
    · rw [ha.findR_none hn] at hR; cases hR
    have h := h.perm (.refl _) hq
    have ha := ha.perm (.refl _) hq
    have hb : b = y.r := by rw [ha.findR_some hr hn] at hR; exact (Option.some.inj hR).symm
    have hn' : ∀ a ∈ rs', (new == a.r) = false := by
      intro a hm
      rcases hnew with hnew | hnew
      · exact newR ha hnew a (List.mem_cons_of_mem _ hm)
      · rw [← BEq.congr_left hnew]; exact hn a hm
    obtain ⟨qs, t1, t2, s, e, hqs, e1, p1, p2⟩ := swapRightRemove_raw h hr new
    rw [GroupSpec.swapRightRemove, hR, hb]
    refine ⟨_, e, ⟨_, _, ⟨p1, p2, swapRightRemove_wf h.wf hn' hqs e1⟩, False.elim, ?_⟩, rfl, by simp, by simp⟩
    exact ⟨(ha.eraseR_some h.wf hr hn).rights.cons _, moveAll_perm h.wf ha hr new hqs⟩

/-! ### A history with stale right ids -/

/-- The calls that neither panic nor go wrong on a map with stale right ids. -/
def StaleSafe (c : Contents L R) : Op L R → Prop
  | .insert l r => findL c l = none ∨ findR c r = none
  | .swapRight old new => findR c old = none ∨ findR c new = none
  | .swapRightRemove old new => findR c old = none ∨ findR c new = none ∨ (old == new) = true
  | .pair l r => findL c l = none ∨ findR c r = none
  | .getRight _ => False
  | .iter => False
  | .iterPaired => False
  | .retainPaired _ _ _ => False
  | .extend _ => False
  | .extendOpt _ => False
  | .clone cl cr => (∀ x, (cl x == x) = true) ∧ (∀ x, (cr x == x) = true)
  | _ => True

/-- A history that works despite stale right ids, however the visiting orders turn out. -/
def StaleRun (c : Contents L R) : List (Op L R) → Prop
  | [] => True
  | op :: ops => StaleSafe c op ∧ ∀ o c', Step c op o c' → StaleRun c' ops

theorem hasPair_false_of_absent (hs : c.Sound) {l : L} {r : R} (h : findL c l = none ∨ findR c r = none) :
    hasPair c l r = false := by
  rw [hasPair, List.any_eq_false]
  intro p hp
  rcases h with h | h
  · rw [findL, List.find?_eq_none] at h
    have := h p hp
    simp_all
  · rw [findR, List.find?_eq_none] at h
    have := h p.2 (hs.owned p hp)
    simp_all

theorem exec_simulates_stale (h : Stale m c) {op : Op L R} (hs : StaleSafe c op) :
    ∃ o m' c', m.exec op = .ok (o, m') ∧ Step c op o c' ∧ Stale m' c' ∧ m'.hb = m.hb := by
  cases op with
  | insert l r =>
    obtain ⟨m', e, h', n⟩ := insert_refinesG h l r (hasPair_false_of_absent h.sound hs) (.inr hs)
    exact ⟨_, m', _, by simp only [exec, e, bind, Except.bind, pure, Except.pure], ⟨rfl, rfl⟩, h', n.hb⟩
  | insertRemove l r =>
    obtain ⟨o, m', e, ho, h', n⟩ := insertRemove_refines h l r
    exact ⟨_, m', _, by simp only [exec, e, bind, Except.bind, pure, Except.pure], ⟨o, ho, rfl, rfl⟩, h', n.hb⟩
  | insertLeft l r =>
    obtain ⟨m', e, h', n⟩ := insertLeft_refines h l r
    exact ⟨_, m', _, by simp only [exec, e, bind, Except.bind, pure, Except.pure], ⟨rfl, rfl⟩, h', n.hb⟩
  | insertRight r =>
    obtain ⟨o, m', e, ho, h', n⟩ := insertRight_refines h r
    exact ⟨_, m', _, by simp only [exec, e, bind, Except.bind, pure, Except.pure], ⟨o, ho, rfl, rfl⟩, h', n.hb⟩
  | swapRight old new =>
    obtain ⟨m', e, h', n⟩ := swapRight_stale h old new hs
    exact ⟨_, m', _, by simp only [exec, e, bind, Except.bind, pure, Except.pure], ⟨rfl, rfl⟩, h', n.hb⟩
  | swapRightRemove old new =>
    obtain ⟨m', e, h', n⟩ := swapRightRemove_stale h old new hs
    exact ⟨_, m', _, by simp only [exec, e, bind, Except.bind, pure, Except.pure], ⟨rfl, rfl⟩, h', n.hb⟩
  | pair l r =>
    obtain ⟨m', e, h', hb, _⟩ := pair_refinesG h l r (.inr hs)
    exact ⟨_, m', _, by simp only [exec, e, bind, Except.bind, pure, Except.pure], ⟨rfl, rfl⟩, h', hb⟩
  | remove l r =>
    obtain ⟨o, m', e, ho, h', hb, _⟩ := remove_refines h l r
    exact ⟨_, m', _, by simp only [exec, e, bind, Except.bind, pure, Except.pure], ⟨o, ho, rfl, rfl⟩, h', hb⟩
  | removeLeft l =>
    obtain ⟨m', e, h', hb, _⟩ := removeLeft_refines h l
    exact ⟨_, m', _, by simp only [exec, e, bind, Except.bind, pure, Except.pure], ⟨rfl, rfl⟩, h', hb⟩
  | removeRight r =>
    obtain ⟨o, m', e, ho, h', hb, _⟩ := removeRight_refines h r
    exact ⟨_, m', _, by simp only [exec, e, bind, Except.bind, pure, Except.pure], ⟨o, ho, rfl, rfl⟩, h', hb⟩
  | getRight l => exact hs.elim
  | getLeftIter r =>
    obtain ⟨ks, e, hp⟩ := getLeftList_refines h r
    exact ⟨_, m, _, by simp only [exec, e, bind, Except.bind, pure, Except.pure], ⟨ks, hp, rfl, rfl⟩, h, rfl⟩
  | containsLeft l => exact ⟨_, m, _, rfl, ⟨by rw [containsLeft_refines h], rfl⟩, h, rfl⟩
  | containsRight r => exact ⟨_, m, _, rfl, ⟨by rw [containsRight_refines h], rfl⟩, h, rfl⟩
  | isRightPaired r => exact ⟨_, m, _, rfl, ⟨by rw [isRightPaired_refines h], rfl⟩, h, rfl⟩
  | arePaired l r => exact ⟨_, m, _, rfl, ⟨by rw [arePaired_refines h], rfl⟩, h, rfl⟩
  | lenLeft => exact ⟨_, m, _, rfl, ⟨by rw [lenLeft_refines h], rfl⟩, h, rfl⟩
  | lenRight => exact ⟨_, m, _, rfl, ⟨by rw [lenRight_refines h], rfl⟩, h, rfl⟩
  | isEmpty => exact ⟨_, m, _, rfl, ⟨by rw [isEmpty_refines h], rfl⟩, h, rfl⟩
  | clear => exact ⟨_, _, _, rfl, ⟨rfl, rfl⟩, clear_refines m, rfl⟩
  | iter => exact hs.elim
  | iterPaired => exact hs.elim
  | iterUnpaired => exact ⟨_, m, _, rfl, ⟨_, iterUnpairedList_refines h, rfl, rfl⟩, h, rfl⟩
  | iterLeft => exact ⟨_, m, _, rfl, ⟨_, iterLeft_refines h, rfl, rfl⟩, h, rfl⟩
  | iterRight => exact ⟨_, m, _, rfl, ⟨_, iterRight_refines h, rfl, rfl⟩, h, rfl⟩
  | retainPaired σ f s => exact hs.elim
  | retainUnpaired σ f s =>
    obtain ⟨d, m', hd, e, h', hb, _⟩ := retainUnpaired_refines h f s
    exact ⟨_, m', _, by simp only [exec, e, bind, Except.bind, pure, Except.pure], ⟨d, hd, rfl, rfl⟩, h', hb⟩
  | extend xs => exact hs.elim
  | extendOpt xs => exact hs.elim
  | clone cl cr => exact ⟨_, _, _, rfl, ⟨rfl, rfl⟩, clone_refines h hs.1 hs.2, rfl⟩

theorem run_simulates_stale (h : Stale m c) {ops : List (Op L R)} (hs : StaleRun c ops) :
    ∃ os m' c', m.run ops = .ok (os, m') ∧ Steps c ops os c' ∧ Stale m' c' ∧ m'.hb = m.hb := by
  induction ops generalizing m c with
  | nil => exact ⟨[], m, c, rfl, ⟨rfl, rfl⟩, h, rfl⟩
  | cons op ops ih =>
    obtain ⟨o, m1, c1, e1, s1, h1, hb1⟩ := exec_simulates_stale h hs.1
    obtain ⟨os, m2, c2, e2, s2, h2, hb2⟩ := ih h1 (hs.2 o c1 s1)
    exact ⟨o :: os, m2, c2, by simp only [run, e1, e2, bind, Except.bind, pure, Except.pure],
      ⟨o, os, c1, rfl, s1, s2⟩, h2, hb2.trans hb1⟩

/-! ### The calls that go wrong -/

/-- the stored right id of the left item is that of no right item -/
def Lost (rs : List (RRec R)) (x : LRec L R) : Prop := ∀ a ∈ rs, a.id ≠ x.rid

theorem Lost.get (h : Rep m ls rs) {x : LRec L R} (hx : Lost rs x) (k : UInt64) :
    m.right.get k (rightWithRightId x.rid) = none := RawTable.get_none (h.noneR (idsR hx))

theorem getLeft_eq (h : Rep m ls rs) {x : LRec L R} (hx : x ∈ ls) {l : L} (hl : (l == x.l) = true) :
    m.left.get (m.hb.hl l) (fun y => y.value == l) = some (toL m.hb x).2 := by
  obtain ⟨ls', hp⟩ := perm_cons_of_mem hx
  have h := h.perm hp (.refl _)
  exact getL_eq h.consL hl (h.wf.others hl)

theorem lost_getRight (h : Rep m ls rs) {x : LRec L R} (hx : x ∈ ls) (hlost : Lost rs x) {l : L} (hl : (l == x.l) = true) :
    m.getRight l = none := by
  rw [getRight, getRightBy, getLeft_eq h hx hl]
  simp only [toL, hlost.get h]
  rfl

theorem lost_take (h : Rep m ls rs) {x : LRec L R} (hlost : Lost rs x) (n : Nat) (xs : List (LRec L R)) (hx : x ∈ xs)
    (hn : xs.length ≤ n) : PairedIter.take m n ⟨xs.map fun x => (toL m.hb x).2⟩ = .error .unwrapNone := by
  induction n generalizing xs with
  | zero => cases xs with
    | nil => cases hx
    | cons => simp at hn
  | succ n ih =>
    cases xs with
    | nil => cases hx
    | cons a xs =>
      simp only [List.map_cons, PairedIter.take, PairedIter.next, toL]
      rcases List.mem_cons.1 hx with rfl | hx
      · simp only [hlost.get h, bind, Except.bind]
      · have := ih xs hx (by simpa using hn)
        simp only [toL] at this
        cases m.right.get (m.hb.hr a.r) (rightWithRightId a.rid) <;>
          simp only [this, bind, Except.bind]

theorem lost_iterPaired (h : Rep m ls rs) {x : LRec L R} (hx : x ∈ ls) (hlost : Lost rs x) :
    m.iterPairedList = .error .unwrapNone := by
  obtain ⟨xs, hp, e⟩ := h.leftList
  have hl : m.left.len = xs.length := by
    have := h.left.length_eq
    simp only [List.length_map] at this
    rw [RawTable.len, this, hp.length_eq]
  have := lost_take h hlost (m.left.len + 1) xs (hp.mem_iff.2 hx) (by omega)
  simp only [iterPairedList, iterPaired, e, this, bind, Except.bind]

theorem lost_insert (h : Rep m ls (y :: rs)) {x : LRec L R} (hx : x ∈ ls) (hlost : Lost (y :: rs) x) {l : L} {r : R}
    (hl : (l == x.l) = true) (hr : (r == y.r) = true) : m.insert l r = .error .unwrapNone := by
  obtain ⟨ls', hp⟩ := perm_cons_of_mem hx
  have h := h.perm hp (.refl _)
  obtain ⟨w, e, p⟩ := getMutL_eq h.consL hl (h.wf.others hl)
  obtain ⟨w2, e2, p2⟩ := getMutR_eq h.consR hr (h.wf.othersR hr)
  have e3 : ∀ s k, (w2 ⟨y.r, s, y.id⟩).getMut k (rightWithRightId x.rid) = none := by
    intro s k
    refine RawTable.getMut_none fun a ha => ?_
    rcases List.mem_cons.1 ((p2 _).mem_iff.1 ha) with rfl | ha
    · simpa [rightWithRightId] using hlost y List.mem_cons_self
    · exact idsR (fun b hb => hlost b (List.mem_cons_of_mem _ hb)) a ha
  simp only [insert, e, e2, toL, toR, e3]

theorem lost_pair (h : Rep m ls (y :: rs)) {x : LRec L R} (hx : x ∈ ls) (hlost : Lost (y :: rs) x) {l : L} {r : R}
    (hl : (l == x.l) = true) (hr : (r == y.r) = true) : m.pair l r = .error .unwrapNone := by
  obtain ⟨ls', hp⟩ := perm_cons_of_mem hx
  have h := h.perm hp (.refl _)
  obtain ⟨w, e, p⟩ := getMutL_eq h.consL hl (h.wf.others hl)
  have e2 := getR_eq h.consR hr (h.wf.othersR hr)
  have e3 : ∀ k, m.right.getMut k (rightWithRightId x.rid) = none :=
    fun k => RawTable.getMut_none (h.noneR (idsR hlost))
  simp only [pair, e, e2, toL, e3]

/-- what is ahead of the iterator contains a lost item that is not the first of its group -/
def Trap (rs : List (RRec R)) (qs : List (LRec L R)) (zs : List (Grp L R)) : Prop :=
  (∃ x ∈ qs, Lost rs x) ∨ ∃ z ∈ zs, ∃ x ∈ z.2.tail, Lost rs x

theorem Iter.next_trap (h : Rep m ls rs) {it : Iter R} {qs zs} (hi : IterAt m ls it qs zs) (ht : Trap rs qs zs) :
    it.next m = .error .unwrapNone ∨
    ∃ e it' qs' zs', (yields qs zs).length = (yields qs' zs').length + 1 ∧ it.next m = .ok (some (e, it')) ∧
      IterAt m ls it' qs' zs' ∧ Trap rs qs' zs' := by
  cases qs with
  | cons x qs =>
    have hc : it.cur = some (key m.hb x :: qs.map (key m.hb)) := by
      have := hi.cur
      cases hcur : it.cur with
      | none => rw [hcur] at this; cases this
      | some k => rw [hcur] at this; simpa using this
    have hx := hi.mem x List.mem_cons_self
    cases e : m.right.get (m.hb.hr x.r) (rightWithRightId x.rid) with
    | none =>
      have e' : m.right.get (toL m.hb x).2.hash (rightWithRightId (toL m.hb x).2.rid) = none := e
      refine .inl ?_
      simp only [Iter.next, hc, h.getL_of_mem hx, e']
    | some y =>
      have e' : m.right.get (toL m.hb x).2.hash (rightWithRightId (toL m.hb x).2.rid) = some y := e
      refine .inr ⟨(some x.l, y.value), { it with cur := some (qs.map (key m.hb)) }, qs, zs, by simp [yields], ?_,
        ⟨rfl, hi.todo, fun a ha => hi.mem a (List.mem_cons_of_mem _ ha), hi.grp⟩, ?_⟩
      · simp only [Iter.next, hc, h.getL_of_mem hx, e']
        simp [toL]
      · rcases ht with ⟨a, ha, hl⟩ | ht
        · rcases List.mem_cons.1 ha with rfl | ha
          · rw [hl.get h] at e; cases e
          · exact .inl ⟨a, ha, hl⟩
        · exact .inr ht
  | nil =>
    have hn : it.next m = .ok (it.nextRight m) := by
      have := hi.cur
      cases hcur : it.cur with
      | none => simp [Iter.next, hcur]
      | some k =>
        rw [hcur] at this
        obtain rfl : k = [] := by simpa using this
        simp [Iter.next, hcur]
    cases zs with
    | nil => rcases ht with ⟨a, ha, _⟩ | ⟨z, hz, _⟩ <;> simp_all
    | cons z zs =>
      obtain ⟨hz1, hz2⟩ := hi.grp z List.mem_cons_self
      have hrest : ∀ w ∈ zs, w.1.pairs.entries = w.2.map (key m.hb) ∧ ∀ x ∈ w.2, x ∈ ls ∧ x.r = w.1.r :=
        fun w hw => hi.grp w (List.mem_cons_of_mem _ hw)
      obtain ⟨y, xs⟩ := z
      have ht' : Trap rs xs.tail zs := by
        rcases ht with ⟨a, ha, _⟩ | ⟨z, hz, a, ha, hl⟩
        · cases ha
        · rcases List.mem_cons.1 hz with rfl | hz
          · exact .inl ⟨a, ha, hl⟩
          · exact .inr ⟨z, hz, a, ha, hl⟩
      cases xs with
      | nil =>
        refine .inr ⟨(none, y.r), ⟨zs.map fun z => (toR m.hb z.1).2, it.cur⟩, [], zs, by simp [yields, Grp.out], ?_,
          ⟨hi.cur, rfl, by simp, hrest⟩, ht'⟩
        rw [hn, Iter.nextRight, hi.todo]
        simp only [List.map_cons, toR] at hz1 ⊢
        simp [hz1]
      | cons x xs =>
        have hx := hz2 x List.mem_cons_self
        refine .inr ⟨(some x.l, x.r), ⟨zs.map fun z => (toR m.hb z.1).2, some (xs.map (key m.hb))⟩, xs, zs,
          by simp [yields, Grp.out], ?_, ⟨rfl, rfl, fun a ha => (hz2 a (List.mem_cons_of_mem _ ha)).1, hrest⟩, ht'⟩
        have hg := h.getL_of_mem hx.1
        rw [hn, Iter.nextRight, hi.todo]
        simp only [List.map_cons, toR] at hz1 ⊢
        simp only [hz1, hg]
        simp [toL, hx.2]

theorem Iter.take_trap (h : Rep m ls rs) (n : Nat) {it : Iter R} {qs zs} (hi : IterAt m ls it qs zs) (ht : Trap rs qs zs)
    (hn : (yields qs zs).length < n) : Iter.take m n it = .error .unwrapNone := by
  induction n generalizing it qs zs with
  | zero => omega
  | succ n ih =>
    rcases Iter.next_trap h hi ht with e | ⟨e, it', qs', zs', h1, h2, h3, h4⟩
    · simp only [Iter.take, e, bind, Except.bind]
    · have := ih h3 h4 (by omega)
      simp only [Iter.take, h2, this, bind, Except.bind]


theorem Rep.hasPair_iff (h : Rep m ls rs) (ha : Abs ls rs c) {l : L} {r : R} :
    hasPair c l r = true ↔ ∃ x ∈ ls, (l == x.l) = true ∧ (r == x.r) = true := by
  rw [hasPair, any_eq_of_perm ha.pairs, List.any_map, List.any_eq_true]
  simp

theorem Lost.of_moved {hb : BuildHasher L R} {lc rc : Nat} (h : WF hb lc rc ls (y :: rs)) (hf : Fresh ls)
    {qs : List (LRec L R)} (hq : qs.Perm (mine ls y.id)) (new : R) (s : PairSet) :
    ∀ x ∈ qs.map (moved new rc), Lost (⟨new, rc, s⟩ :: rs) x := by
  intro x hx
  obtain ⟨a, ha, rfl⟩ := List.mem_map.1 hx
  have hm := List.mem_filter.1 (hq.mem_iff.1 ha)
  have e : a.rid = y.id := by rw [hf a hm.1]; simpa using hm.2
  intro b hb
  show b.id ≠ a.rid
  rw [e]
  rcases List.mem_cons.1 hb with rfl | hb
  · have := h.boundR y List.mem_cons_self
    simp only; omega
  · exact h.ridsApart b hb

/-- After `swap_right_remove` on a right item with left items: the calls that go wrong. -/
theorem swapRightRemove_wrong (h : Repr m c) {old new b : R} (ho : findR c old = some b)
    (hnew : findR c new = none ∨ (old == new) = true) {o : Option R} {m' : GroupMap L R}
    (e : m.swapRightRemove old new = .ok (o, m')) :
    (∀ l, hasPair c l old = true → m'.getRight l = none ∧
      ∀ r, m'.containsRight r = true → m'.insert l r = .error .unwrapNone ∧ m'.pair l r = .error .unwrapNone) ∧
    (hasGroup c old = true → m'.iterPairedList = .error .unwrapNone) ∧
    (2 ≤ (group c old).length → m'.iterList = .error .unwrapNone) := by
  obtain ⟨ls, rs, h, hf, ha⟩ := h
  have hf := hf trivial
  rcases h.wf.casesR old with hn | ⟨y, rs', hq, hr, hn⟩
  · rw [ha.findR_none hn] at ho; cases ho
  have h := h.perm (.refl _) hq
  have ha := ha.perm (.refl _) hq
  have hn' : ∀ a ∈ rs', (new == a.r) = false := by
    intro a hm
    rcases hnew with hnew | hnew
    · exact newR ha hnew a (List.mem_cons_of_mem _ hm)
    · rw [← BEq.congr_left hnew]; exact hn a hm
  obtain ⟨qs, t1, t2, s, e', hqs, e1, p1, p2⟩ := swapRightRemove_raw h hr new
  rw [e] at e'
  cases e'
  have h' : Rep { m with left := t1, right := t2, rightCounter := m.rightCounter + 1 } _ _ :=
    ⟨p1, p2, swapRightRemove_wf h.wf hn' hqs e1⟩
  have hlost := Lost.of_moved h.wf hf hqs new s
  have hmem : ∀ q ∈ qs, moved new m.rightCounter q ∈
      qs.map (moved new m.rightCounter) ++ ls.filter fun x => !(x.own == y.id) :=
    fun q hq => List.mem_append_left _ (List.mem_map_of_mem hq)
  have hgl := (ha.group_some h.wf List.mem_cons_self hr).length_eq
  rw [List.length_map, ← hqs.length_eq] at hgl
  refine ⟨fun l hl => ?_, fun hg => ?_, fun hg => ?_⟩
  · obtain ⟨x, hx, h1, h2⟩ := (Rep.hasPair_iff h ha).1 hl
    have hxq : x ∈ qs := hqs.mem_iff.2 (List.mem_filter.2 ⟨hx, by rw [h.wf.own_iff List.mem_cons_self hr hx]; exact h2⟩)
    have hlx := hlost _ (List.mem_map_of_mem hxq)
    refine ⟨lost_getRight h' (hmem x hxq) hlx h1, fun r hr' => ?_⟩
    rcases h'.wf.casesR r with hn2 | ⟨z, rs2, hp2, hr2, hn2⟩
    · rw [containsRight, RawTable.get_none (h'.noneR (keysR hn2))] at hr'; cases hr'
    · have h2 := h'.perm (.refl _) hp2
      have hlx2 : Lost (z :: rs2) (moved new m.rightCounter x) := fun a ha => hlx a (hp2.mem_iff.2 ha)
      exact ⟨lost_insert h2 (hmem x hxq) hlx2 h1 hr2, lost_pair h2 (hmem x hxq) hlx2 h1 hr2⟩
  · have : qs ≠ [] := by
      rw [hasGroup, List.any_eq_true] at hg
      obtain ⟨p, hp, h2⟩ := hg
      rintro rfl
      have : p ∈ c.pairs.filter (old == ·.2) := List.mem_filter.2 ⟨hp, h2⟩
      rw [group, List.length_map, List.length_nil, List.length_eq_zero_iff] at hgl
      rw [hgl] at this; cases this
    obtain ⟨q, hq⟩ := List.exists_mem_of_ne_nil _ this
    exact lost_iterPaired h' (hmem q hq) (hlost _ (List.mem_map_of_mem hq))
  · obtain ⟨ys, hp, ey⟩ := h'.rightList
    obtain ⟨zs, h1, h2⟩ := exists_groups h'.wf ys fun y hy => hp.mem_iff.1 hy
    have hi : IterAt { m with left := t1, right := t2, rightCounter := m.rightCounter + 1 }
        (qs.map (moved new m.rightCounter) ++ ls.filter fun x => !(x.own == y.id))
        (GroupMap.iter { m with left := t1, right := t2, rightCounter := m.rightCounter + 1 }) [] zs :=
      ⟨rfl, by
        rw [GroupMap.iter, ey, ← h1, List.map_map]; rfl, by simp, fun z hz => ⟨(h2 z hz).2.1, fun x hx => by
          have hm := (h2 z hz).2.2.mem_iff.1 hx
          have hm' := List.mem_filter.1 hm
          obtain ⟨w, hw, w1, w2⟩ := h'.wf.owner x hm'.1
          have : w = z.1 := h'.wf.sameR hw (h2 z hz).1 (by rw [w1]; simpa using hm'.2)
          exact ⟨hm'.1, by rw [← w2, this]⟩⟩⟩
    have ht : Trap (⟨new, m.rightCounter, s⟩ :: rs') [] zs := by
      have : (⟨new, m.rightCounter, s⟩ : RRec R) ∈ zs.map (·.1) := by
        rw [h1]; exact hp.mem_iff.2 List.mem_cons_self
      obtain ⟨z, hz, hz1⟩ := List.mem_map.1 this
      have hz2 := (h2 z hz).2
      rw [hz1] at hz2
      have hlen : z.2.length = qs.length := by
        have := congrArg List.length hz2.1
        rw [e1, List.length_map, List.length_map] at this
        exact this.symm
      have hz3 : ∀ x ∈ z.2, Lost (⟨new, m.rightCounter, s⟩ :: rs') x := by
        intro x hx
        have hm' := List.mem_filter.1 (hz2.2.mem_iff.1 hx)
        rcases List.mem_append.1 hm'.1 with hm | hm
        · exact hlost x hm
        · exfalso
          obtain ⟨w, hw, w1, -⟩ := h.wf.owner x (List.mem_filter.1 hm).1
          have := h.wf.boundR w hw
          have : x.own = m.rightCounter := by simpa using hm'.2
          omega
      refine .inr ⟨z, hz, ?_⟩
      match hzz : z.2 with
      | [] => rw [hzz] at hlen; simp at hlen; omega
      | [a] => rw [hzz] at hlen; simp at hlen; omega
      | a :: a2 :: as => exact ⟨a2, by simp, hz3 a2 (by rw [hzz]; simp)⟩
    have := Iter.take_trap h' _ hi ht (Nat.lt_succ_of_le hi.fuel)
    simp only [iterList, this, bind, Except.bind]

theorem take_mem {x : LRec L R} (n : Nat) (xs : List (LRec L R)) (hx : x ∈ xs)
    (hn : xs.length ≤ n) {ps it} (e : PairedIter.take m n ⟨xs.map fun x => (toL m.hb x).2⟩ = .ok (ps, it)) :
    ∃ v, m.right.get (m.hb.hr x.r) (rightWithRightId x.rid) = some v ∧ (x.l, v.value) ∈ ps := by
  induction n generalizing xs ps it with
  | zero => cases xs with
    | nil => cases hx
    | cons => simp at hn
  | succ n ih =>
    cases xs with
    | nil => cases hx
    | cons a xs =>
      simp only [List.map_cons, PairedIter.take, PairedIter.next, toL] at e
      cases hg : m.right.get (m.hb.hr a.r) (rightWithRightId a.rid) with
      | none => simp only [hg, bind, Except.bind] at e; cases e
      | some v =>
        simp only [hg, bind, Except.bind] at e
        cases e2 : PairedIter.take m n ⟨xs.map fun x => (toL m.hb x).2⟩ with
        | error => simp only [toL] at e2; simp only [e2] at e; cases e
        | ok q =>
          have ih := fun hx => ih xs hx (by simpa using hn) e2
          simp only [toL] at e2
          simp only [e2, pure, Except.pure] at e
          cases e
          rcases List.mem_cons.1 hx with rfl | hx
          · exact ⟨v, hg, List.mem_cons_self⟩
          · obtain ⟨v, h1, h2⟩ := ih hx
            exact ⟨v, h1, List.mem_cons_of_mem _ h2⟩

/-- a probe by right id hits the right item with this id, if anything -/
theorem getR_id_cases (h : Rep m ls (y :: rs)) (hn : ∀ a ∈ rs, a.id ≠ y.id) (k : UInt64) :
    m.right.get k (rightWithRightId y.id) = none ∨ m.right.get k (rightWithRightId y.id) = some (toR m.hb y).2 := by
  rw [RawTable.get]
  cases hf : RawImpl.find m.right k (rightWithRightId y.id) with
  | none => exact .inl rfl
  | some i =>
    obtain ⟨e, h1, h2⟩ := LawfulRaw.find_sound _ _ _ _ hf
    refine .inr ?_
    simp only [h1, Option.map_some]
    rcases List.mem_cons.1 (h.right.mem_iff.1 (List.mem_of_getElem? h1)) with rfl | hm
    · rfl
    · rw [idsR hn e hm] at h2; cases h2

/-- After `swap_right` on a right item with left items: `get_right` and `iter_paired` go wrong. -/
theorem swapRight_wrong (h : Repr m c) {old new b : R} (ho : findR c old = some b)
    (hnew : findR c new = none) {m' : GroupMap L R} (e : m.swapRight old new = .ok m')
    {l : L} (hl : hasPair c l old = true) :
    (m'.getRight l = none ∨ m'.getRight l = some b) ∧
    ∀ ps, m'.iterPairedList = .ok ps → ∃ l', (l == l') = true ∧ (l', b) ∈ ps := by
  obtain ⟨ls, rs, h, hf, ha⟩ := h
  have hf := hf trivial
  rcases h.wf.casesR old with hn | ⟨y, rs', hq, hr, hn⟩
  · rw [ha.findR_none hn] at ho; cases ho
  have h := h.perm (.refl _) hq
  have ha := ha.perm (.refl _) hq
  have hb : b = y.r := by rw [ha.findR_some hr hn] at ho; exact (Option.some.inj ho).symm
  obtain ⟨qs, t1, t2, s, s0, e', hqs, e1, e2, p1, p2⟩ := swapRight_raw h hr new
  rw [e] at e'
  cases e'
  have hw := swapRight_wf h.wf (newR ha hnew) hqs e1 e2
  have h' : Rep { m with left := t1, right := t2, rightCounter := m.rightCounter + 1 } _ _ := ⟨p1, p2, hw⟩
  have h2 := h'.perm (.refl _) (.swap _ _ _)
  obtain ⟨x, hx, hlx, hrx⟩ := (Rep.hasPair_iff h ha).1 hl
  have hm : x ∈ mine ls y.id := List.mem_filter.2 ⟨hx, by rw [h.wf.own_iff List.mem_cons_self hr hx]; exact hrx⟩
  have hmem : moved new m.rightCounter x ∈
      qs.map (moved new m.rightCounter) ++ ls.filter fun x => !(x.own == y.id) :=
    List.mem_append_left _ (List.mem_map_of_mem (hqs.mem_iff.2 hm))
  have hid : x.rid = y.id := by rw [hf x hx]; simpa using (List.mem_filter.1 hm).2
  have hc := getR_id_cases h2 (fun a ha => (h2.wf.tailR a ha).1.symm) (m.hb.hr new)
  simp only at hc
  rw [← hid] at hc
  subst hb
  refine ⟨?_, fun ps hps => ?_⟩
  · rw [getRight, getRightBy, getLeft_eq h' hmem hlx]
    rcases hc with hc | hc
    · exact .inl (by simp only [toL, moved, hc]; rfl)
    · exact .inr (by simp only [toL, moved, hc]; rfl)
  · obtain ⟨xs, hp, ex⟩ := h'.leftList
    simp only [iterPairedList, iterPaired, bind, Except.bind, pure, Except.pure] at hps
    split at hps
    · cases hps
    · next q hq =>
      cases hps
      rw [ex] at hq
      have hlen : t1.len = xs.length := by
        have := p1.length_eq
        simp only [List.length_map] at this
        rw [RawTable.len, this, hp.length_eq]
      obtain ⟨v, hv1, hv2⟩ := take_mem _ xs (hp.mem_iff.2 hmem) (by simp only [hlen]; omega) hq
      refine ⟨x.l, hlx, ?_⟩
      rcases hc with hc | hc
      · rw [show (moved new m.rightCounter x).rid = x.rid from rfl] at hv1
        simp only [moved] at hv1
        rw [hc] at hv1; cases hv1
      · simp only [moved] at hv1
        rw [hc] at hv1; cases hv1
        exact hv2

/-- `swap_right` adds `new` even if an equal item is there. -/
theorem swapRight_duplicates (h : Repr m c) {old b : R} (ho : findR c old = some b) (new : R) :
    ∃ m', m.swapRight old new = .ok m' ∧ m'.iterRight.Perm (new :: c.rights) ∧ m'.lenRight = c.rights.length + 1 := by
  obtain ⟨ls, rs, h, hf, ha⟩ := h
  rcases h.wf.casesR old with hn | ⟨y, rs', hq, hr, hn⟩
  · rw [ha.findR_none hn] at ho; cases ho
  have h := h.perm (.refl _) hq
  have ha := ha.perm (.refl _) hq
  obtain ⟨qs, t1, t2, s, s0, e, hqs, e1, e2, p1, p2⟩ := swapRight_raw h hr new
  have : (GroupMap.iterRight { m with left := t1, right := t2, rightCounter := m.rightCounter + 1 }).Perm
      (new :: c.rights) := by
    rw [iterRight, RawTable.toList, List.map_map]
    refine (p2.map _).trans (.trans ?_ (ha.rights.symm.cons _))
    simp only [List.map_map, List.map_cons]
    exact .refl _
  refine ⟨_, e, this, ?_⟩
  have := this.length_eq
  rw [iterRight, List.length_map, RawTable.toList, List.length_map] at this
  exact this

end Verif.GroupMap
