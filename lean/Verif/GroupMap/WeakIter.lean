import Verif.GroupMap.Weak
import Verif.GroupMap.Bulk
/-! Iterators and the retaining calls of `GroupMap` with a `==` that is any relation. -/
set_option linter.unusedSectionVars false
set_option linter.unusedSimpArgs false
namespace Verif.GroupMap
open GroupWeak
open CycleMap (removeEntry_of_get_none)
open CycleSpec (split)

variable [RawImpl] [LawfulRaw] {L R : Type} [BEq L] [BEq R]
variable {m : GroupMap L R} {ls : List (LRec L R)} {rs : List (RRec R)} {x : LRec L R} {y : RRec R}

theorem Linked.looks (h : Linked m ls rs) : Looks m ls where
  getL := fun x hx => by
    obtain ⟨ls', hp⟩ := perm_cons_of_mem hx
    have h := h.perm hp (.refl _)
    exact getL_id h.consL h.tied.tailL
  getR := fun x hx => by
    obtain ⟨y, rs', hp, h1, h2⟩ := h.tied.ownerOf hx
    have h' := h.perm (.refl _) hp
    refine ⟨(toR m.hb y).2, ?_, h2⟩
    rw [h.tied.fresh x hx, ← h1, ← h2]
    exact getR_id h'.consR h'.tied.tailR

theorem Linked.leftList (h : Linked m ls rs) :
    ∃ xs : List (LRec L R), xs.Perm ls ∧ m.left.toList = xs.map fun x => (toL m.hb x).2 := by
  obtain ⟨xs, hp, e⟩ := perm_map_inv h.left
  exact ⟨xs, hp.symm, by rw [RawTable.toList, e, List.map_map]; rfl⟩

theorem Linked.rightList (h : Linked m ls rs) :
    ∃ ys : List (RRec R), ys.Perm rs ∧ m.right.toList = ys.map fun y => (toR m.hb y).2 := by
  obtain ⟨ys, hp, e⟩ := perm_map_inv h.right
  exact ⟨ys, hp.symm, by rw [RawTable.toList, e, List.map_map]; rfl⟩

/-! ### The pairs and the lone items of the records -/

theorem Tied.find {hb : BuildHasher L R} {lc rc : Nat} (h : Tied hb lc rc ls rs) (hx : x ∈ ls) :
    (groups ls rs).rights.find? (·.1 == x.own) = some (x.own, x.r) := by
  obtain ⟨z, hz, e1, e2⟩ := h.owner x hx
  cases hf : (groups ls rs).rights.find? (·.1 == x.own) with
  | none =>
    have := List.find?_eq_none.1 hf (z.id, z.r) (List.mem_map.2 ⟨z, hz, rfl⟩)
    simp [e1] at this
  | some p =>
    have h1 : p.1 = x.own := by
      have := List.find?_some hf
      simpa using this
    obtain ⟨w, hw, rfl⟩ := List.mem_map.1 (List.mem_of_find?_eq_some hf)
    have := h.sameR hz hw (by rw [e1]; exact h1.symm)
    subst this
    simp only at h1 ⊢
    rw [h1, e2]

theorem pairs_groups {hb : BuildHasher L R} {lc rc : Nat} (h : Tied hb lc rc ls rs) :
    pairs (groups ls rs) = ls.map fun x => (x.l, x.r) := by
  have : ∀ as : List (LRec L R), (∀ a ∈ as, a ∈ ls) →
      ((as.map fun x => (x.l, x.own)).filterMap fun x =>
        ((groups ls rs).rights.find? (·.1 == x.2)).map fun y => (x.1, y.2)) = as.map fun x => (x.l, x.r) := by
    intro as has
    induction as with
    | nil => rfl
    | cons a as ih =>
      rw [List.map_cons, List.filterMap_cons, h.find (has a List.mem_cons_self), ih fun b hb => has b (List.mem_cons_of_mem _ hb)]
      rfl
  exact this ls fun _ h => h

theorem Tied.isEmpty {hb : BuildHasher L R} {lc rc : Nat} (h : Tied hb lc rc ls rs) (hy : y ∈ rs) :
    y.pairs.isEmpty = !((groups ls rs).lefts.any (·.2 == y.id)) := by
  cases hc : (groups ls rs).lefts.any (·.2 == y.id)
  · have := h.noPairs hy fun p hp he => by
      rw [List.any_eq_false] at hc
      exact hc p hp (by simpa using he)
    simp [PairSet.isEmpty, this]
  · obtain ⟨p, hp, he⟩ := List.any_eq_true.1 hc
    obtain ⟨a, ha, rfl⟩ := List.mem_map.1 hp
    have hk := (h.mem_pairs ha hy).2 (by simpa using he)
    cases hq : y.pairs.entries with
    | nil => rw [hq] at hk; cases hk
    | cons b bs => simp [PairSet.isEmpty, hq]

theorem lone_groups {hb : BuildHasher L R} {lc rc : Nat} (h : Tied hb lc rc ls rs) :
    lone (groups ls rs) = (rs.filter fun y => y.pairs.isEmpty).map fun y => (y.id, y.r) := by
  rw [lone]
  show ((rs.map fun y => (y.id, y.r)).filter _) = _
  rw [List.filter_map]
  exact congrArg _ (List.filter_congr fun y hy => (h.isEmpty hy).symm)

/-! ### `get_left_iter` -/

theorem getLeftList_weak (h : Linked m ls rs) (r : R) :
    ∃ o, m.getLeftList r = .ok o ∧ GroupWeak.Step (groups ls rs) (.getLeftIter r) (.leftsOf o) (groups ls rs) := by
  rcases h.probeR r with ⟨eR, hnr⟩ | ⟨y, rs1, hq, hr, eR⟩
  · have eR' : m.right.get (m.hb.hr r) (fun y => y.value == r) = none := eR
    refine ⟨none, ?_, same_groups (.refl _) (.refl _), .inl ⟨rfl, noR_groups.2 hnr⟩⟩
    rw [getLeftList, getLeftIter, getLeftIterBy, eR']; rfl
  · have hy : y ∈ rs := hq.mem_iff.2 List.mem_cons_self
    have eR' : m.right.get (m.hb.hr r) (fun y => y.value == r) = some (toR m.hb y).2 := eR
    obtain ⟨qs, hp, e⟩ := perm_map_inv (h.tied.pairs y hy)
    refine ⟨some (qs.map (·.l)), ?_, same_groups (.refl _) (.refl _),
      .inr ⟨_, qs.map (·.l), hit_groups hy hr, ?_, rfl⟩⟩
    · rw [getLeftList, getLeftIter, getLeftIterBy, eR']
      simp only [Option.map_some, toR, e]
      rw [PairIter.take_ok _ qs fun x hx => h.looks.getL x (mem_of_mine hp.symm x hx)]
      simp only [bind, Except.bind, pure, Except.pure]
      rw [List.take_of_length_le (by simp [PairIter.len])]
    · rw [group_groups]; exact hp.symm.map _

/-! ### Iterators -/

theorem iterPaired_records (h : Linked m ls rs) :
    ∃ xs : List (LRec L R), xs.Perm ls ∧ m.iterPairedList = .ok (xs.map fun x => (x.l, x.r)) := by
  obtain ⟨xs, hp, e⟩ := h.leftList
  refine ⟨xs, hp, ?_⟩
  have := PairedIter.take_ok h.looks (m.left.len + 1) xs fun x hx => hp.mem_iff.1 hx
  simp only [iterPairedList, iterPaired, e, this, bind, Except.bind, pure, Except.pure]
  rw [List.take_of_length_le]
  have := h.left.length_eq
  simp only [List.length_map] at this
  rw [RawTable.len, this, hp.length_eq]; omega

theorem iterPairedList_weak (h : Linked m ls rs) : ∃ d, m.iterPairedList = .ok d ∧ d.Perm (pairs (groups ls rs)) := by
  obtain ⟨xs, hp, e⟩ := iterPaired_records h
  exact ⟨_, e, by rw [pairs_groups h.tied]; exact hp.map _⟩

theorem iterUnpaired_records (h : Linked m ls rs) :
    ∃ zs : List (RRec R), zs.Perm (rs.filter fun y => y.pairs.isEmpty) ∧ m.iterUnpairedList = zs.map (·.r) := by
  obtain ⟨ys, hp, e⟩ := h.rightList
  refine ⟨ys.filter fun y => y.pairs.isEmpty, hp.filter _, ?_⟩
  rw [iterUnpairedList, iterUnpaired, e, (UnpairedIter.take_spec _ _).1, List.take_of_length_le]
  · rw [List.filter_map, List.map_map]; rfl
  · rw [List.filter_map, List.length_map, List.length_map]
    refine Nat.le_trans (List.length_filter_le _ _) ?_
    have := h.right.length_eq
    simp only [List.length_map] at this
    rw [RawTable.len, this, hp.length_eq]; omega

theorem iterUnpairedList_weak (h : Linked m ls rs) : m.iterUnpairedList.Perm ((lone (groups ls rs)).map (·.2)) := by
  obtain ⟨zs, hp, e⟩ := iterUnpaired_records h
  rw [e, lone_groups h.tied, List.map_map]
  exact hp.map _

theorem iterLeft_weak (h : Linked m ls rs) : m.iterLeft.Perm ((groups ls rs).lefts.map (·.1)) := by
  obtain ⟨xs, hp, e⟩ := h.leftList
  rw [iterLeft, e, List.map_map, groups, List.map_map]
  exact hp.map _

theorem iterRight_weak (h : Linked m ls rs) : m.iterRight.Perm ((groups ls rs).rights.map (·.2)) := by
  obtain ⟨ys, hp, e⟩ := h.rightList
  rw [iterRight, e, List.map_map, groups, List.map_map]
  exact hp.map _

/-- the records are those of the groups -/
theorem Tied.groups_perm {hb : BuildHasher L R} {lc rc : Nat} (h : Tied hb lc rc ls rs) :
    ls.Perm (rs.flatMap fun y => mine ls y.id) := by
  induction rs generalizing ls with
  | nil =>
    cases ls with
    | nil => simp
    | cons x ls => obtain ⟨y, hy, -⟩ := h.owner x List.mem_cons_self; cases hy
  | cons y rs ih =>
    have := ih h.dropRight
    rw [List.flatMap_cons]
    refine (List.filter_append_perm (fun x : LRec L R => x.own == y.id) ls).symm.trans (List.Perm.append_left _ ?_)
    refine this.trans (.of_eq ?_)
    rw [List.flatMap_def, List.flatMap_def]
    congr 1
    refine List.map_congr_left fun a ha => ?_
    rw [mine, mine, List.filter_filter]
    refine List.filter_congr fun x _ => ?_
    have hne := h.tailR a ha
    cases hc : x.own == a.id
    · rfl
    · simp at hc; simp [hc, hne]

/-- choosing for every right record its left records in the order of its set -/
theorem Tied.exists_groups {hb : BuildHasher L R} {lc rc : Nat} (h : Tied hb lc rc ls rs) (ys : List (RRec R))
    (hy : ∀ y ∈ ys, y ∈ rs) :
    ∃ zs : List (Grp L R), zs.map (·.1) = ys ∧ ∀ z ∈ zs, z.1 ∈ rs ∧ z.1.pairs.entries = z.2.map (key hb) ∧
      z.2.Perm (mine ls z.1.id) := by
  induction ys with
  | nil => exact ⟨[], rfl, by simp⟩
  | cons y ys ih =>
    obtain ⟨zs, h1, h2⟩ := ih fun a ha => hy a (List.mem_cons_of_mem _ ha)
    obtain ⟨qs, hq, e⟩ := perm_map_inv (h.pairs y (hy y List.mem_cons_self))
    refine ⟨(y, qs) :: zs, by simp [h1], ?_⟩
    intro z hz
    rcases List.mem_cons.1 hz with rfl | hz
    · exact ⟨hy y List.mem_cons_self, e, hq.symm⟩
    · exact h2 z hz

theorem iterList_weak (h : Linked m ls rs) : ∃ d, m.iterList = .ok d ∧
    d.Perm ((pairs (groups ls rs)).map (fun p => (some p.1, p.2)) ++ (lone (groups ls rs)).map fun y => (none, y.2)) := by
  obtain ⟨ys, hp, e⟩ := h.rightList
  obtain ⟨zs, h1, h2⟩ := h.tied.exists_groups ys fun y hy => hp.mem_iff.1 hy
  have hfst : ys.map (fun y => (toR m.hb y).2) = zs.map fun z => (toR m.hb z.1).2 := by
    rw [← h1, List.map_map]; rfl
  have hi : IterAt m ls m.iter [] zs := ⟨rfl, by rw [iter, e, hfst], by simp, fun z hz => by
    obtain ⟨z1, z2, z3⟩ := h2 z hz
    refine ⟨z2, fun x hx => ?_⟩
    have hx' := List.mem_filter.1 (z3.mem_iff.1 hx)
    refine ⟨hx'.1, ?_⟩
    obtain ⟨w, hw, e1, e2⟩ := h.tied.owner x hx'.1
    have : x.own = z.1.id := by simpa using hx'.2
    rw [← e2, h.tied.sameR hw z1 (by rw [e1, this])]⟩
  obtain ⟨it2, -, -, e2, -⟩ := Iter.take_ok h.looks (m.iter.fuel + 1) hi
  have hfu := hi.fuel
  refine ⟨yields [] zs, ?_, ?_⟩
  · simp only [iterList, e2, bind, Except.bind, pure, Except.pure]
    rw [List.take_of_length_le (by omega)]
  · rw [yields, List.map_nil, List.nil_append, pairs_groups h.tied, lone_groups h.tied, List.map_map, List.map_map]
    refine (out_perm zs).trans (.append ?_ ?_)
    · refine List.Perm.map _ ?_
      refine (flatMap_perm fun z hz => (h2 z hz).2.2).trans ?_
      refine .trans ?_ h.tied.groups_perm.symm
      refine .trans (.of_eq ?_) (hp.flatMap_right _)
      rw [← h1, List.flatMap_map]
    · refine .trans (.of_eq ?_) ((hp.filter _).map _)
      rw [← h1, List.filter_map, List.map_map]
      rw [List.filter_congr fun z hz => ?_]
      · rfl
      · simp only [Function.comp, PairSet.isEmpty, (h2 z hz).2.1]
        cases z.2 <;> rfl

/-! ### `retain_paired` with a closure that accepts nothing -/

theorem retainPaired_weak {σ : Type} (h : Linked m ls rs) (f : σ → L → R → Bool × σ) (s : σ)
    (hs : ∀ p ∈ pairs (groups ls rs), ∀ s, (f s p.1 p.2).1 = false) : ∃ s', m.retainPaired f s = .ok (s', m) := by
  obtain ⟨xs, hp, e⟩ := iterPaired_records h
  have hn : ∀ p ∈ xs.map fun x => (x.l, x.r), ∀ s, (f s p.1 p.2).1 = false := fun p hm =>
    hs p (by rw [pairs_groups h.tied]; exact (hp.map _).mem_iff.1 hm)
  have scan : ∀ (ps : List (L × R)) (s : σ), (∀ p ∈ ps, ∀ s, (f s p.1 p.2).1 = false) →
      ∃ s', m.retainPairedScan f ps s = .ok ([], s') := by
    intro ps
    induction ps with
    | nil => exact fun s _ => ⟨s, rfl⟩
    | cons p ps ih =>
      intro s hps
      have h0 := hps p List.mem_cons_self s
      obtain ⟨l, r⟩ := p
      cases hf : f s l r with
      | mk b s' =>
        simp only [hf] at h0
        subst h0
        simp only [retainPairedScan, hf]
        exact ih s' fun q hq => hps q (List.mem_cons_of_mem _ hq)
  obtain ⟨s', e2⟩ := scan _ s hn
  exact ⟨s', by simp only [retainPaired, e, e2, retainPairedDrop, bind, Except.bind, pure, Except.pure]⟩

/-! ### `retain_unpaired` -/

/-- what the lookups of the items `ys` find, as records -/
def Found (rs : List (RRec R)) : List (RRec R) → List (RRec R) → Prop
  | [], zs => zs = []
  | y :: ys, zs => ∃ z zs', zs = z :: zs' ∧ z ∈ rs ∧ (z.r == y.r) = true ∧ Found rs ys zs'

theorem Found.picks {ys zs : List (RRec R)} (h : Found rs ys zs) :
    Picks (groups ls rs) (ys.map fun y => (y.id, y.r)) (zs.map (·.id)) ∧ ∀ z ∈ zs, z ∈ rs := by
  induction ys generalizing zs with
  | nil => cases h; exact ⟨rfl, by simp⟩
  | cons y ys ih =>
    obtain ⟨z, zs', rfl, hz, hr, h⟩ := h
    obtain ⟨i1, i2⟩ := ih h
    refine ⟨⟨(z.id, z.r), _, rfl, hit_groups hz hr, i1⟩, fun a ha => ?_⟩
    rcases List.mem_cons.1 ha with rfl | ha
    · exact hz
    · exact i2 a ha

theorem retainUnpairedScan_weak {σ : Type} (h : Linked m ls rs) (f : σ → R → Bool × σ) (s : σ) (ys : List (RRec R)) :
    (∃ zs s', m.retainUnpairedScan f (ys.map (·.r)) s = .ok (zs.map (fun z => (m.hb.hr z.r, z.id)), s') ∧
      Found rs (split (fun s (y : RRec R) => f s y.r) ys s).1 zs) ∨
    ((∃ e, m.retainUnpairedScan f (ys.map (·.r)) s = .error e) ∧
      ∃ y ∈ ys, (∃ s, (f s y.r).1 = true) ∧ ∀ a ∈ rs, (a.r == y.r) = false) := by
  induction ys generalizing s with
  | nil => exact .inl ⟨[], s, rfl, rfl⟩
  | cons y ys ih =>
    cases hf : f s y.r with
    | mk b s' =>
      cases b with
      | false =>
        simp only [List.map_cons, retainUnpairedScan, hf, split]
        rcases ih s' with h1 | ⟨h1, z, hz, h2⟩
        · exact .inl h1
        · exact .inr ⟨h1, z, List.mem_cons_of_mem _ hz, h2⟩
      | true =>
        simp only [List.map_cons, retainUnpairedScan, hf, split]
        rcases h.probeR y.r with ⟨eR, hnr⟩ | ⟨z, rs1, hq, hr, eR⟩
        · refine .inr ⟨⟨.unwrapNone, ?_⟩, y, List.mem_cons_self, ⟨s, by rw [hf]⟩, hnr⟩
          simp only [getRightInnerWithHash, eR]
        · rcases ih s' with ⟨zs, s2, e, hfd⟩ | ⟨⟨e, he⟩, w, hw, h2⟩
          · refine .inl ⟨z :: zs, s2, ?_, z, zs, rfl, hq.mem_iff.2 List.mem_cons_self, hr, hfd⟩
            simp only [getRightInnerWithHash, eR, e, bind, Except.bind, pure, Except.pure, List.map_cons, toR,
              m.hb.hr_congr _ _ hr]
          · refine .inr ⟨⟨e, ?_⟩, w, List.mem_cons_of_mem _ hw, h2⟩
            simp only [getRightInnerWithHash, eR, he, bind, Except.bind]

theorem retainUnpairedDrop_weak (zs : List (RRec R)) (h : Linked m ls rs)
    (hz : ∀ z ∈ zs, ∀ a ∈ rs, a.id = z.id → a.r = z.r) :
    ∃ m', m.retainUnpairedDrop (zs.map fun z => (m.hb.hr z.r, z.id)) = .ok m' ∧
      Linked m' (ls.filter fun x => !((zs.map (·.id)).contains x.own)) (rs.filter fun y => !((zs.map (·.id)).contains y.id)) ∧
      m'.hb = m.hb := by
  induction zs generalizing m ls rs with
  | nil =>
    refine ⟨m, rfl, h.perm (.of_eq (List.filter_eq_self.2 ?_).symm) (.of_eq (List.filter_eq_self.2 ?_).symm), rfl⟩ <;> simp
  | cons z zs ih =>
    by_cases hc : ∃ a ∈ rs, a.id = z.id
    · obtain ⟨a, ha, hid⟩ := hc
      have hr := hz z List.mem_cons_self a ha hid
      obtain ⟨rs', hq⟩ := perm_cons_of_mem ha
      have h' := h.perm (.refl _) hq
      obtain ⟨t1, e1, p1⟩ := removeR_id h'.consR h'.tied.tailR
      obtain ⟨qs, t2, hp, e2, p2⟩ := removeAll_group h'
      have h1 : Linked { m with left := t2, right := t1 } (ls.filter fun x => !(x.own == a.id)) rs' :=
        ⟨p2, p1, h'.tied.dropRight⟩
      obtain ⟨m', e3, h3, hb3⟩ := ih h1 fun w hw b hb => hz w (List.mem_cons_of_mem _ hw) b (hq.mem_iff.2 (List.mem_cons_of_mem _ hb))
      refine ⟨m', ?_, h3.perm (.of_eq ?_) ?_, hb3⟩
      · rw [hid] at e1
        simp only [List.map_cons, retainUnpairedDrop, removeViaHashAndId, ← hr, e1, toR, e2, bind, Except.bind, pure, Except.pure]
        exact e3
      · rw [List.filter_filter]
        refine List.filter_congr fun x _ => ?_
        rw [List.map_cons, List.contains_cons, hid, Bool.not_or, Bool.and_comm]
      · refine .trans ?_ (hq.filter _).symm
        rw [List.filter_cons, if_neg (by simp [hid])]
        refine .of_eq (List.filter_congr fun b hb => ?_)
        have := h'.tied.tailR b hb
        rw [hid] at this
        rw [List.map_cons, List.contains_cons, Bool.not_or]
        simp [this]
    · have hne : ∀ a ∈ rs, a.id ≠ z.id := fun a ha he => hc ⟨a, ha, he⟩
      have e1 : m.right.removeEntry (m.hb.hr z.r) (rightWithRightId z.id) = none := by
        refine RawTable.removeEntry_none fun e he => ?_
        obtain ⟨a, ha, rfl⟩ := List.mem_map.1 (h.right.mem_iff.1 he)
        simp [rightWithRightId, toR, hne a ha]
      obtain ⟨m', e3, h3, hb3⟩ := ih h fun w hw => hz w (List.mem_cons_of_mem _ hw)
      refine ⟨m', ?_, h3.perm (.of_eq ?_) (.of_eq ?_), hb3⟩
      · simp only [List.map_cons, retainUnpairedDrop, removeViaHashAndId, e1, bind, Except.bind, pure, Except.pure]
        exact e3
      · refine List.filter_congr fun x hx => ?_
        obtain ⟨y, hy, e, -⟩ := h.tied.owner x hx
        have := hne y hy
        rw [e] at this
        rw [List.map_cons, List.contains_cons, Bool.not_or]
        simp [this]
      · refine List.filter_congr fun b hb => ?_
        rw [List.map_cons, List.contains_cons, Bool.not_or]
        simp [hne b hb]

theorem retainUnpaired_weak {σ : Type} (h : Linked m ls rs) (f : σ → R → Bool × σ) (s : σ) :
    (∃ s' m' ls' rs', m.retainUnpaired f s = .ok (s', m') ∧
      GroupWeak.Step (groups ls rs) (.retainUnpaired σ f s) .unit (groups ls' rs') ∧ Linked m' ls' rs' ∧ m'.hb = m.hb) ∨
    ((∃ e, m.retainUnpaired f s = .error e) ∧ ¬ Calm (groups ls rs) (.retainUnpaired σ f s)) := by
  obtain ⟨ys, hp, e⟩ := iterUnpaired_records h
  have hlone : (ys.map fun y => (y.id, y.r)).Perm (lone (groups ls rs)) := by rw [lone_groups h.tied]; exact hp.map _
  rcases retainUnpairedScan_weak h f s ys with ⟨zs, s', e1, hf⟩ | ⟨⟨x, e1⟩, y, hy, ⟨s0, ht⟩, hn⟩
  · obtain ⟨p1, p2⟩ := hf.picks (ls := ls)
    obtain ⟨m', e2, h2, hb⟩ := retainUnpairedDrop_weak zs h fun z hz a ha he => by rw [h.tied.sameR ha (p2 z hz) he]
    refine .inl ⟨s', m', _, _, ?_, ⟨rfl, ys.map fun y => (y.id, y.r), zs.map (·.id), hlone, ?_, .of_eq ?_, .of_eq ?_⟩, h2, hb⟩
    · simp only [retainUnpaired, e, e1, e2, bind, Except.bind, pure, Except.pure]
    · rw [split_mapped]; exact p1
    · simp only [groups]; rw [List.filter_map]; rfl
    · simp only [groups]; rw [List.filter_map]; rfl
  · refine .inr ⟨⟨x, by simp only [retainUnpaired, e, e1, bind, Except.bind]⟩, fun hc => ?_⟩
    obtain ⟨z, hz, he⟩ := hc (y.id, y.r) (hlone.mem_iff.1 (List.mem_map.2 ⟨y, hy, rfl⟩)) s0 ht
    obtain ⟨a, ha, rfl⟩ := List.mem_map.1 hz
    rw [hn a ha] at he; cases he

end Verif.GroupMap
