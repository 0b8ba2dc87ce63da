import Verif.GroupMap.Ops
/-! The calls of `GroupMap` do to the contents what the specification says. -/
set_option linter.unusedSectionVars false
set_option linter.unusedSimpArgs false
namespace Verif.GroupMap
open GroupSpec

variable [RawImpl] [LawfulRaw] {L R : Type} [BEq L] [BEq R] [EquivBEq L] [EquivBEq R]
variable {G : Prop} {m : GroupMap L R} {c : Contents L R} {ls : List (LRec L R)} {rs : List (RRec R)}

/-- same hash builder, and every counter advances by at most one -/
structure Next (m m' : GroupMap L R) : Prop where
  hb : m'.hb = m.hb
  left : m.leftCounter ≤ m'.leftCounter ∧ m'.leftCounter ≤ m.leftCounter + 1
  right : m.rightCounter ≤ m'.rightCounter ∧ m'.rightCounter ≤ m.rightCounter + 1

theorem Next.refl (m : GroupMap L R) : Next m m := ⟨rfl, by omega, by omega⟩

/-- everything known about a present left item and its right item -/
theorem splitL (h : Rep m ls rs) (l : L) :
    (∀ x ∈ ls, (l == x.l) = false) ∨
    ∃ x ls' y rs', ls.Perm (x :: ls') ∧ rs.Perm (y :: rs') ∧ (l == x.l) = true ∧ (∀ a ∈ ls', (l == a.l) = false) ∧
      y.id = x.own ∧ y.r = x.r := by
  rcases h.wf.casesL l with hn | ⟨x, ls', hp, hl, hn⟩
  · exact .inl hn
  · obtain ⟨y, rs', hq, h1, h2, -⟩ := h.wf.ownerOf (hp.mem_iff.2 List.mem_cons_self)
    exact .inr ⟨x, ls', y, rs', hp, hq, hl, hn, h1, h2⟩

theorem FreshIf.tail {x : LRec L R} (h : FreshIf G (x :: ls)) : FreshIf G ls :=
  fun g a ha => h g a (List.mem_cons_of_mem _ ha)

theorem FreshIf.cons {x : LRec L R} (h : FreshIf G ls) (hx : x.rid = x.own) : FreshIf G (x :: ls) := by
  intro g a ha
  rcases List.mem_cons.1 ha with rfl | ha
  · exact hx
  · exact h g a ha

theorem FreshIf.filter {P : LRec L R → Bool} (h : FreshIf G ls) : FreshIf G (ls.filter P) :=
  fun g a ha => h g a (List.mem_filter.1 ha).1

/-! ### Removing -/

theorem removeLeft_refines (h : ReprG G m c) (l : L) :
    ∃ m', m.removeLeft l = .ok ((findL c l).map (·.1), m') ∧ ReprG G m' (eraseL c l) ∧ m'.hb = m.hb ∧
      m'.leftCounter = m.leftCounter ∧ m'.rightCounter = m.rightCounter := by
  obtain ⟨ls, rs, h, hf, ha⟩ := h
  rcases splitL h l with hn | ⟨x, ls', y, rs', hp, hq, hl, hn, h1, h2⟩
  · refine ⟨m, ?_, ?_, rfl, rfl, rfl⟩
    · rw [removeLeft_none h hn, ha.findL_none hn]; rfl
    · rw [ha.eraseL_none hn]; exact ⟨ls, rs, h, hf, ha⟩
  · have h := h.perm hp hq
    have ha := ha.perm hp hq
    obtain ⟨m', e, h', e1, e2, e3⟩ := removeLeft_some h hl h1 h2
    refine ⟨m', ?_, ⟨_, _, h', (hf.perm hp).tail, ?_⟩, e1, e2, e3⟩
    · rw [e, ha.findL_some hl hn]; rfl
    · exact ⟨(ha.eraseL_some hl hn).rights, (ha.eraseL_some hl hn).pairs⟩

theorem removeRight_refines (h : ReprG G m c) (r : R) :
    ∃ o m', m.removeRight r = .ok (o, m') ∧ SameEntry o (entryR c r) ∧ ReprG G m' (eraseR c r) ∧ m'.hb = m.hb ∧
      m'.leftCounter = m.leftCounter ∧ m'.rightCounter = m.rightCounter := by
  obtain ⟨ls, rs, h, hf, ha⟩ := h
  rcases h.wf.casesR r with hn | ⟨y, rs', hq, hr, hn⟩
  · refine ⟨none, m, removeRight_none h hn, ?_, ?_, rfl, rfl, rfl⟩
    · rw [entryR, ha.findR_none hn]; trivial
    · rw [ha.eraseR_none h.wf hn]; exact ⟨ls, rs, h, hf, ha⟩
  · have h := h.perm (.refl _) hq
    have ha := ha.perm (.refl _) hq
    obtain ⟨ks, m', e, hk, h', e1, e2, e3⟩ := removeRight_some h hr
    refine ⟨_, m', e, ?_, ⟨_, _, h', hf.filter, ha.eraseR_some h.wf hr hn⟩, e1, e2, e3⟩
    rw [entryR, ha.findR_some hr hn]
    exact ⟨hk.trans (ha.group_some h.wf List.mem_cons_self hr).symm, rfl⟩

/-! ### Observers -/

theorem containsLeft_refines (h : ReprG G m c) (l : L) : m.containsLeft l = c.pairs.any (l == ·.1) := by
  obtain ⟨ls, rs, h, hf, ha⟩ := h
  rcases h.wf.casesL l with hn | ⟨x, ls', hp, hl, hn⟩
  · rw [containsLeft, RawTable.get_none (h.noneL (keysL hn)), Option.isSome_none, eq_comm, List.any_eq_false]
    intro p hp
    have := ha.allL (P := fun p => l == p.1) hn p hp
    simp [this]
  · have h := h.perm hp (.refl _)
    have ha := ha.perm hp (.refl _)
    rw [containsLeft, getL_eq h.consL hl hn, Option.isSome_some, eq_comm, List.any_eq_true]
    exact ⟨(x.l, x.r), ha.pairs.mem_iff.2 (List.mem_map.2 ⟨x, List.mem_cons_self, rfl⟩), hl⟩

theorem containsRight_refines (h : ReprG G m c) (r : R) : m.containsRight r = c.rights.any (r == ·) := by
  obtain ⟨ls, rs, h, hf, ha⟩ := h
  rcases h.wf.casesR r with hn | ⟨y, rs', hq, hr, hn⟩
  · rw [containsRight, RawTable.get_none (h.noneR (keysR hn)), Option.isSome_none, eq_comm, List.any_eq_false]
    intro p hp
    have := ha.allR (P := fun p => r == p) hn p hp
    simp [this]
  · have h := h.perm (.refl _) hq
    have ha := ha.perm (.refl _) hq
    rw [containsRight, getR_eq h.consR hr hn, Option.isSome_some, eq_comm, List.any_eq_true]
    exact ⟨y.r, ha.rights.mem_iff.2 (List.mem_map.2 ⟨y, List.mem_cons_self, rfl⟩), hr⟩

theorem isRightPaired_refines (h : ReprG G m c) (r : R) : m.isRightPaired r = hasGroup c r := by
  obtain ⟨ls, rs, h, hf, ha⟩ := h
  rcases h.wf.casesR r with hn | ⟨y, rs', hq, hr, hn⟩
  · rw [isRightPaired, RawTable.get_none (h.noneR (keysR hn)), eq_comm, hasGroup, List.any_eq_false]
    intro p hp
    have := ha.noGroup h.wf hn p hp
    simp [this]
  · have h := h.perm (.refl _) hq
    have ha := ha.perm (.refl _) hq
    rw [isRightPaired, getR_eq h.consR hr hn, ha.hasGroup_some h.wf List.mem_cons_self hr]
    rfl

theorem arePaired_refines (h : ReprG G m c) (l : L) (r : R) : m.arePaired l r = hasPair c l r := by
  obtain ⟨ls, rs, h, hf, ha⟩ := h
  rcases h.wf.casesL l with hn | ⟨x, ls', hp, hl, hn⟩
  · rw [ha.hasPair_none hn]
    simp only [arePaired, RawTable.get_none (h.noneL (keysL hn))]
  · have h := h.perm hp (.refl _)
    have ha := ha.perm hp (.refl _)
    rw [ha.hasPair_some hl hn]
    rcases h.wf.casesR r with hn' | ⟨y, rs', hq, hr, hn'⟩
    · obtain ⟨z, hz, -, e⟩ := h.wf.owner x List.mem_cons_self
      rw [← e, hn' z hz]
      simp only [arePaired, RawTable.get_none (h.noneR (keysR hn'))]
      split <;> simp_all
    · have h := h.perm (.refl _) hq
      have ha := ha.perm (.refl _) hq
      have hk : (m.hb.hl l, x.id) = key m.hb x := by simp [key, m.hb.hl_congr _ _ hl]
      simp only [arePaired, getL_eq h.consL hl hn, getR_eq h.consR hr hn', toL, toR, hk]
      rw [Bool.eq_iff_iff, Bool.and_eq_true, PairSet.contains_iff, h.wf.mem_pairs List.mem_cons_self List.mem_cons_self,
        ← h.wf.own_iff (r := r) List.mem_cons_self hr List.mem_cons_self]
      constructor
      · intro e; simp [e.2]
      · intro e
        have e2 : x.own = y.id := by simpa using e
        refine ⟨?_, e2⟩
        rw [h.wf.own_iff (r := r) List.mem_cons_self hr List.mem_cons_self] at e
        simp [m.hb.hr_congr _ _ e]

theorem getRight_refines (h : Repr m c) (l : L) : m.getRight l = (findL c l).map (·.2) := by
  obtain ⟨ls, rs, h, hf, ha⟩ := h
  rcases splitL h l with hn | ⟨x, ls', y, rs', hp, hq, hl, hn, h1, h2⟩
  · rw [ha.findL_none hn, getRight, getRightBy]
    have : m.left.get (m.hb.hl l) (fun y => y.value == l) = none :=
      RawTable.get_none (h := m.hb.hl l) (h.noneL (keysL hn))
    rw [this]; rfl
  · have h := h.perm hp hq
    have ha := ha.perm hp hq
    rw [ha.findL_some hl hn, getRight, getRightBy]
    have : m.left.get (m.hb.hl l) (fun y => y.value == l) = _ := getL_eq h.consL hl hn
    rw [this]
    have := getR_id h.consR h.wf.ridsApart
    have hx := (hf.perm hp) trivial x List.mem_cons_self
    simp only [toL, hx, ← h1]
    rw [show m.hb.hr x.r = m.hb.hr y.r by rw [h2], this]
    simp [toR, h2]

theorem remove_refines (h : ReprG G m c) (l : L) (r : R) :
    ∃ o m', m.remove l r = .ok (o, m') ∧ SameEntry o (GroupSpec.remove c l r).1 ∧ ReprG G m' (GroupSpec.remove c l r).2 ∧
      m'.hb = m.hb ∧ m'.leftCounter = m.leftCounter ∧ m'.rightCounter = m.rightCounter := by
  unfold GroupMap.remove GroupSpec.remove
  rw [arePaired_refines h]
  cases hasPair c l r
  · exact ⟨none, m, rfl, trivial, h, rfl, rfl, rfl⟩
  · exact removeRight_refines h r

/-! ### Adding -/

theorem insert_refinesG (h : ReprG G m c) (l : L) (r : R) (hs : hasPair c l r = false)
    (hg : G ∨ findL c l = none ∨ findR c r = none) :
    ∃ m', m.insert l r = .ok m' ∧ ReprG G m' (GroupSpec.insert c l r) ∧ Next m m' := by
  obtain ⟨ls, rs, h, hf, ha⟩ := h
  rcases splitL h l with hn | ⟨x, ls', z, rs', hp, hq, hl, hn, h1, h2⟩
  · rcases h.wf.casesR r with hn' | ⟨y, rs', hq, hr, hn'⟩
    · obtain ⟨m', s, e, h', e1, e2, e3⟩ := insert_none_none h hn hn'
      refine ⟨m', e, ⟨_, _, h', hf.cons rfl, ?_⟩, e1, by omega, by omega⟩
      simp only [GroupSpec.insert, ha.findL_none hn, ha.findR_none hn', ha.eraseL_none hn]
      exact ⟨ha.rights.cons _, ha.pairs.cons _⟩
    · have h := h.perm (.refl _) hq
      have ha := ha.perm (.refl _) hq
      obtain ⟨m', s, e, h', e1, e2, e3⟩ := insert_none_some h hn hr
      refine ⟨m', e, ⟨_, _, h', hf.cons rfl, ?_⟩, e1, by omega, by omega⟩
      simp only [GroupSpec.insert, ha.findL_none hn, ha.findR_some hr hn', ha.eraseL_none hn]
      exact ⟨ha.rights, ha.pairs.cons _⟩
  · have h := h.perm hp hq
    have ha := ha.perm hp hq
    have hf := hf.perm hp
    rcases h.wf.casesR r with hn' | ⟨y, rs'', hq', hr, hn'⟩
    · obtain ⟨m', s, e, h', e1, e2, e3⟩ := insert_some_none h hl h1 h2 hn'
      refine ⟨m', e, ⟨_, _, h', hf.tail.cons rfl, ?_⟩, e1, by omega, by omega⟩
      simp only [GroupSpec.insert, ha.findL_some hl hn, ha.findR_none hn']
      exact ⟨ha.rights.cons _, (ha.eraseL_some hl hn).pairs.cons _⟩
    · rw [ha.hasPair_some hl hn] at hs
      have hzy : z ≠ y := by
        rintro rfl
        rw [← h2, hr] at hs; cases hs
      have hz : z ∈ rs'' := by
        rcases List.mem_cons.1 (hq'.mem_iff.1 List.mem_cons_self) with e | hm
        · exact absurd e hzy
        · exact hm
      obtain ⟨rs3, hq3⟩ := perm_cons_of_mem hz
      have hq4 := hq'.trans (hq3.cons y)
      have h := h.perm (.refl _) hq4
      have ha := ha.perm (.refl _) hq4
      have hR := ha.findR_some hr (h.wf.othersR hr)
      have hg : G := by simpa [ha.findL_some hl hn, hR] using hg
      obtain ⟨m', s, e, h', e1, e2, e3⟩ := insert_some_some h hl hr h1 h2 (hf hg x List.mem_cons_self)
      refine ⟨m', e, ⟨_, _, h', hf.tail.cons rfl, ?_⟩, e1, by omega, by omega⟩
      simp only [GroupSpec.insert, ha.findL_some hl hn, ha.findR_some hr (h.wf.othersR hr)]
      exact ⟨ha.rights, (ha.eraseL_some hl hn).pairs.cons _⟩

theorem insert_refines (h : Repr m c) (l : L) (r : R) (hs : hasPair c l r = false) :
    ∃ m', m.insert l r = .ok m' ∧ Repr m' (GroupSpec.insert c l r) ∧ Next m m' :=
  insert_refinesG h l r hs (.inl trivial)

theorem pair_refinesG (h : ReprG G m c) (l : L) (r : R) (hg : G ∨ findL c l = none ∨ findR c r = none) :
    ∃ m', m.pair l r = .ok ((GroupSpec.pair c l r).1, m') ∧ ReprG G m' (GroupSpec.pair c l r).2 ∧ Next m m' := by
  obtain ⟨ls, rs, h, hf, ha⟩ := h
  rcases splitL h l with hn | ⟨x, ls', z, rs', hp, hq, hl, hn, h1, h2⟩
  · refine ⟨m, ?_, ?_, .refl m⟩
    · rw [pair_noL h hn, GroupSpec.pair, ha.findL_none hn]
    · rw [GroupSpec.pair, ha.findL_none hn]; exact ⟨ls, rs, h, hf, ha⟩
  · have h := h.perm hp hq
    have ha := ha.perm hp hq
    have hf := hf.perm hp
    rcases h.wf.casesR r with hn' | ⟨y, rs'', hq', hr, hn'⟩
    · refine ⟨m, ?_, ?_, .refl m⟩
      · rw [pair_noR h hn', GroupSpec.pair, ha.findL_some hl hn, ha.findR_none hn']
      · rw [GroupSpec.pair, ha.findL_some hl hn, ha.findR_none hn']; exact ⟨_, _, h, hf, ha⟩
    · have hR := (ha.perm (.refl _) hq').findR_some hr hn'
      have hg : G := by simpa [ha.findL_some hl hn, hR] using hg
      rcases List.mem_cons.1 (hq'.mem_iff.1 List.mem_cons_self) with rfl | hz
      · obtain ⟨m', s, e, h', e1, e2, e3⟩ := pair_same h hl hr h1 h2 (hf hg x List.mem_cons_self)
        refine ⟨m', ?_, ⟨_, _, h', hf.tail.cons rfl, ?_⟩, e1, by omega, by omega⟩
        · rw [e, GroupSpec.pair, ha.findL_some hl hn, ha.findR_some hr (h.wf.othersR hr)]
        · rw [GroupSpec.pair, ha.findL_some hl hn, ha.findR_some hr (h.wf.othersR hr)]
          exact ⟨ha.rights, (ha.eraseL_some hl hn).pairs.cons _⟩
      · obtain ⟨rs3, hq3⟩ := perm_cons_of_mem hz
        have hq4 := hq'.trans (hq3.cons y)
        have h := h.perm (.refl _) hq4
        have ha := ha.perm (.refl _) hq4
        obtain ⟨m', s, e, h', e1, e2, e3⟩ := pair_move h hl hr h1 h2 (hf hg x List.mem_cons_self)
        refine ⟨m', ?_, ⟨_, _, h', hf.tail.cons rfl, ?_⟩, e1, by omega, by omega⟩
        · rw [e, GroupSpec.pair, ha.findL_some hl hn, ha.findR_some hr (h.wf.othersR hr)]
        · rw [GroupSpec.pair, ha.findL_some hl hn, ha.findR_some hr (h.wf.othersR hr)]
          exact ⟨ha.rights, (ha.eraseL_some hl hn).pairs.cons _⟩

theorem pair_refines (h : Repr m c) (l : L) (r : R) :
    ∃ m', m.pair l r = .ok ((GroupSpec.pair c l r).1, m') ∧ Repr m' (GroupSpec.pair c l r).2 ∧ Next m m' :=
  pair_refinesG h l r (.inl trivial)

theorem insertLeft_refines (h : ReprG G m c) (l : L) (r : R) :
    ∃ m', m.insertLeft l r = .ok ((GroupSpec.insertLeft c l r).1, m') ∧ ReprG G m' (GroupSpec.insertLeft c l r).2 ∧
      Next m m' := by
  obtain ⟨ls, rs, h, hf, ha⟩ := h
  rcases h.wf.casesR r with hn' | ⟨y, rs'', hq', hr, hn'⟩
  · refine ⟨m, ?_, ?_, .refl m⟩
    · rw [insertLeft_noR h hn', GroupSpec.insertLeft, ha.findR_none hn']
    · rw [GroupSpec.insertLeft, ha.findR_none hn']; exact ⟨ls, rs, h, hf, ha⟩
  have h := h.perm (.refl _) hq'
  have ha := ha.perm (.refl _) hq'
  have hR := ha.findR_some hr hn'
  simp only [GroupSpec.insertLeft, hR]
  rcases splitL h l with hn | ⟨x, ls', z, rs', hp, hq, hl, hn, h1, h2⟩
  · obtain ⟨m', s, e, h', e1, e2, e3⟩ := insertLeft_new h hn hr
    refine ⟨m', ?_, ⟨_, _, h', hf.cons rfl, ?_⟩, e1, by omega, by omega⟩
    · rw [e, ha.findL_none hn]; rfl
    · rw [ha.eraseL_none hn]
      exact ⟨ha.rights, ha.pairs.cons _⟩
  · have h := h.perm hp (.refl _)
    have ha := ha.perm hp (.refl _)
    have hf := hf.perm hp
    rcases List.mem_cons.1 (hq.mem_iff.2 List.mem_cons_self) with rfl | hz
    · obtain ⟨m', s, e, h', e1, e2, e3⟩ := insertLeft_same h hl hr h1 h2
      refine ⟨m', ?_, ⟨_, _, h', hf.tail.cons rfl, ?_⟩, e1, by omega, by omega⟩
      · rw [e, ha.findL_some hl hn]; rfl
      · exact ⟨ha.rights, (ha.eraseL_some hl hn).pairs.cons _⟩
    · obtain ⟨rs3, hq3⟩ := perm_cons_of_mem hz
      have h := h.perm (.refl _) (hq3.cons y)
      have ha := ha.perm (.refl _) (hq3.cons y)
      obtain ⟨m', s, e, h', e1, e2, e3⟩ := insertLeft_move h hl hr h1 h2
      refine ⟨m', ?_, ⟨_, _, h', hf.tail.cons rfl, ?_⟩, e1, by omega, by omega⟩
      · rw [e, ha.findL_some hl hn]; rfl
      · exact ⟨ha.rights, (ha.eraseL_some hl hn).pairs.cons _⟩

/-- after `eraseR` no right item equals `r` -/
theorem ReprG.rep_eraseR {r : R} (h : ReprG G m (eraseR c r)) :
    ∃ ls rs, Rep m ls rs ∧ FreshIf G ls ∧ Abs ls rs (eraseR c r) ∧ ∀ y ∈ rs, (r == y.r) = false := by
  obtain ⟨ls, rs, h, hf, ha⟩ := h
  refine ⟨ls, rs, h, hf, ha, fun y hy => ?_⟩
  have := ha.rights.mem_iff.2 (List.mem_map.2 ⟨y, hy, rfl⟩)
  simpa [eraseR] using (List.mem_filter.1 this).2

theorem insertRight_refines (h : ReprG G m c) (r : R) :
    ∃ o m', m.insertRight r = .ok (o, m') ∧ SameEntry o (GroupSpec.insertRight c r).1 ∧
      ReprG G m' (GroupSpec.insertRight c r).2 ∧ Next m m' := by
  obtain ⟨o, m1, e, ho, h1, e1, e2, e3⟩ := removeRight_refines h r
  obtain ⟨ls, rs, h1, hf, ha, hn⟩ := h1.rep_eraseR
  refine ⟨o, _, ?_, ho, ⟨_, _, h1.addRight (r := r) hn (PairSet.new_entries 0) (RawTable.insert_perm _ _ _ (hashesR h1.right)), hf, ?_⟩, e1, ?_, ?_⟩
  · simp only [GroupMap.insertRight, e, bind, Except.bind, pure, Except.pure]
  · exact ⟨ha.rights.cons _, ha.pairs⟩
  · simp only; omega
  · simp only; omega

theorem insertRemove_refines (h : ReprG G m c) (l : L) (r : R) :
    ∃ o m', m.insertRemove l r = .ok (((GroupSpec.insertRemove c l r).1.1, o), m') ∧
      SameEntry o (GroupSpec.insertRemove c l r).1.2 ∧ ReprG G m' (GroupSpec.insertRemove c l r).2 ∧ Next m m' := by
  obtain ⟨m1, e, h1, e1, e2, e3⟩ := removeLeft_refines h l
  obtain ⟨o, m2, e', ho, h2, e1', e2', e3'⟩ := removeRight_refines h1 r
  obtain ⟨ls, rs, h2, hf, ha, hn⟩ := h2.rep_eraseR
  have hl : ∀ x ∈ ls, (l == x.l) = false := by
    intro x hx
    have := ha.pairs.mem_iff.2 (List.mem_map.2 ⟨x, hx, rfl⟩)
    have := (List.mem_filter.1 (List.mem_filter.1 this).1).2
    simpa using this
  refine ⟨o, _, ?_, ho, ⟨_, _, addBoth (n := 1) h2 hl hn, hf.cons rfl, ?_⟩, ?_, ?_, ?_⟩
  · simp only [GroupMap.insertRemove, e, e', bind, Except.bind, pure, Except.pure, GroupSpec.insertRemove]
  · exact ⟨ha.rights.cons _, ha.pairs.cons _⟩
  · simp only; rw [e1', e1]
  · simp only; omega
  · simp only; omega

/-! ### Swapping a lone right item -/

theorem WF.setPairs {hb : BuildHasher L R} {lc rc : Nat} {y : RRec R} (h : WF hb lc rc ls (y :: rs)) {s : PairSet}
    (hs : s.entries.Perm y.pairs.entries) : WF hb lc rc ls (⟨y.r, y.id, s⟩ :: rs) where
  apartL := h.apartL
  apartR := List.pairwise_cons.2 ⟨fun a ha => h.tailR a ha, (List.pairwise_cons.1 h.apartR).2⟩
  boundL := h.boundL
  boundR := by
    intro a ha
    rcases List.mem_cons.1 ha with rfl | ha
    · exact h.boundR y List.mem_cons_self
    · exact h.boundR a (List.mem_cons_of_mem _ ha)
  owner := by
    intro a ha
    obtain ⟨z, hz, e⟩ := h.owner a ha
    rcases List.mem_cons.1 hz with rfl | hz
    · exact ⟨_, List.mem_cons_self, e⟩
    · exact ⟨z, List.mem_cons_of_mem _ hz, e⟩
  pairs := by
    intro a ha
    rcases List.mem_cons.1 ha with rfl | ha
    · exact hs.trans (h.pairs y List.mem_cons_self)
    · exact h.pairs a (List.mem_cons_of_mem _ ha)

theorem moveAll_lone {old new : R} (hg : hasGroup c old = false) : moveAll c old new = c.pairs := by
  unfold moveAll
  rw [hasGroup, List.any_eq_false] at hg
  conv => rhs; rw [← List.map_id c.pairs]
  refine List.map_congr_left fun p hp => ?_
  have := hg p hp
  simp [this]

theorem swapRight_refines (h : ReprG G m c) (old new : R)
    (hs : findR c old = none ∨ hasGroup c old = false ∧ findR c new = none) :
    ∃ m', m.swapRight old new = .ok m' ∧ ReprG G m' (GroupSpec.swapRight c old new) ∧ Next m m' := by
  cases hR : findR c old with
  | none =>
    obtain ⟨o, m', e, ho, h', hn⟩ := insertRight_refines h new
    have hg : m.right.getMut (m.hb.hr old) (equivalentKeyRight old) = none := by
      obtain ⟨ls, rs, h, hf, ha⟩ := h
      refine RawTable.getMut_none (h.noneR (keysR fun y hy => ?_))
      rw [findR, List.find?_eq_none] at hR
      simpa using hR y.r (ha.rights.mem_iff.2 (List.mem_map.2 ⟨y, hy, rfl⟩))
    refine ⟨m', ?_, ?_, hn⟩
    · simp only [GroupMap.swapRight, hg, e, bind, Except.bind, pure, Except.pure]
    · rw [GroupSpec.swapRight, hR]; exact h'
  | some b =>
    obtain ⟨hg, hnew⟩ : hasGroup c old = false ∧ findR c new = none := by simpa [hR] using hs
    obtain ⟨ls, rs, h, hf, ha⟩ := h
    rcases h.wf.casesR old with hn | ⟨y, rs', hq, hr, hn⟩
    · rw [ha.findR_none hn] at hR; cases hR
    have h := h.perm (.refl _) hq
    have ha := ha.perm (.refl _) hq
    have hnil : y.pairs.entries = [] := by
      have := ha.hasGroup_some h.wf List.mem_cons_self hr
      rw [hg] at this
      simpa [PairSet.isEmpty] using this
    have hcol : y.pairs.collect.entries = [] := by
      have := PairSet.collect_perm y.pairs
      rw [hnil] at this; exact this.eq_nil
    have hn' : ∀ a ∈ y :: rs', (new == a.r) = false := by
      intro a hm
      rw [findR, List.find?_eq_none] at hnew
      simpa using hnew a.r (ha.rights.mem_iff.2 (List.mem_map.2 ⟨a, hm, rfl⟩))
    obtain ⟨w, e, p⟩ := getMutR_eq h.consR hr hn
    have hw := (h.wf.setPairs (s := y.pairs.clear) (by rw [RawTable.clear_entries, hnil])).addRight
      (r := new) (forall_cons_with hn') hcol
    refine ⟨{ m with right := (w ⟨y.r, y.pairs.clear, y.id⟩).insert (m.hb.hr new) ⟨new, y.pairs.collect, m.rightCounter⟩
                       (·.hashWith m.hb.hr)
                     rightCounter := m.rightCounter + 1 }, ?_,
      ⟨_, _, ⟨h.left, (RawTable.insert_perm _ _ _ (hashesR (rs := ⟨y.r, y.id, y.pairs.clear⟩ :: rs') (p _))).trans ((p _).cons _), hw⟩, hf, ?_⟩, rfl, by simp, by simp⟩
    · simp only [GroupMap.swapRight, e, toR, hcol, rehashAll, bind, Except.bind, pure, Except.pure]
    · rw [GroupSpec.swapRight, hR]
      simp only [moveAll_lone hg]
      exact ⟨ha.rights.cons _, ha.pairs⟩

theorem swapRightRemove_refines (h : ReprG G m c) (old new : R)
    (hs : findR c old = none ∨ hasGroup c old = false ∧ (findR c new = none ∨ (old == new) = true)) :
    ∃ m', m.swapRightRemove old new = .ok ((GroupSpec.swapRightRemove c old new).1, m') ∧
      ReprG G m' (GroupSpec.swapRightRemove c old new).2 ∧ Next m m' := by
  cases hR : findR c old with
  | none =>
    obtain ⟨o, m', e, ho, h', hn⟩ := insertRight_refines h new
    have hg : m.right.removeEntry (m.hb.hr old) (equivalentKeyRight old) = none := by
      obtain ⟨ls, rs, h, hf, ha⟩ := h
      refine RawTable.removeEntry_none (h.noneR (keysR fun y hy => ?_))
      rw [findR, List.find?_eq_none] at hR
      simpa using hR y.r (ha.rights.mem_iff.2 (List.mem_map.2 ⟨y, hy, rfl⟩))
    refine ⟨m', ?_, ?_, hn⟩
    · simp only [GroupMap.swapRightRemove, hg, e, bind, Except.bind, pure, Except.pure, GroupSpec.swapRightRemove, hR]
    · rw [GroupSpec.swapRightRemove, hR]; exact h'
  | some b =>
    obtain ⟨hg, hnew⟩ : hasGroup c old = false ∧ (findR c new = none ∨ (old == new) = true) := by simpa [hR] using hs
    obtain ⟨ls, rs, h, hf, ha⟩ := h
    rcases h.wf.casesR old with hn | ⟨y, rs', hq, hr, hn⟩
    · rw [ha.findR_none hn] at hR; cases hR
    have h := h.perm (.refl _) hq
    have ha := ha.perm (.refl _) hq
    have hb : b = y.r := by rw [ha.findR_some hr hn] at hR; exact (Option.some.inj hR).symm
    have hnil : y.pairs.entries = [] := by
      have := ha.hasGroup_some h.wf List.mem_cons_self hr
      rw [hg] at this
      simpa [PairSet.isEmpty] using this
    have hcol : y.pairs.collect.entries = [] := by
      have := PairSet.collect_perm y.pairs
      rw [hnil] at this; exact this.eq_nil
    have hn' : ∀ a ∈ rs', (new == a.r) = false := by
      intro a hm
      rcases hnew with hnew | hnew
      · rw [findR, List.find?_eq_none] at hnew
        simpa using hnew a.r (ha.rights.mem_iff.2 (List.mem_map.2 ⟨a, List.mem_cons_of_mem _ hm, rfl⟩))
      · rw [← BEq.congr_left hnew]; exact hn a hm
    obtain ⟨t, e, p⟩ := removeR_eq h.consR hr hn
    have hdrop : (ls.filter fun x => !(x.own == y.id)) = ls := by
      rw [List.filter_eq_self]
      intro x hx
      have := (h.wf.mem_pairs hx List.mem_cons_self (y := y)).2
      rw [hnil] at this
      simpa using this
    have hw := h.wf.dropRight
    rw [hdrop] at hw
    have hae := ha.eraseR_some h.wf hr hn
    rw [hdrop] at hae
    refine ⟨{ m with right := t.insert (m.hb.hr new) ⟨new, y.pairs.collect, m.rightCounter⟩
                       (·.hashWith m.hb.hr)
                     rightCounter := m.rightCounter + 1 }, ?_,
      ⟨_, _, ⟨h.left, (RawTable.insert_perm _ _ _ (hashesR p)).trans (p.cons _), hw.addRight hn' hcol⟩, hf, ?_⟩, rfl, by simp, by simp⟩
    · simp only [GroupMap.swapRightRemove, e, toR, hcol, rehashAll, bind, Except.bind, pure, Except.pure,
        GroupSpec.swapRightRemove, hR, hb]
    · rw [GroupSpec.swapRightRemove, hR]
      simp only [moveAll_lone hg]
      exact ⟨hae.rights.cons _, ha.pairs⟩

/-! ### Construction, sizes, clearing -/

theorem WF.nil (hb : BuildHasher L R) (lc rc : Nat) : WF hb lc rc ([] : List (LRec L R)) [] where
  apartL := .nil
  apartR := .nil
  boundL := by simp
  boundR := by simp
  owner := by simp
  pairs := by simp

theorem withHasher_repr (hb : BuildHasher L R) : ReprG G (withHasher hb) GroupSpec.empty :=
  ⟨[], [], ⟨by simp [withHasher, RawTable.withCapacity_entries], by simp [withHasher, RawTable.withCapacity_entries],
    .nil _ _ _⟩, by intro _ x hx; simp at hx, ⟨.refl _, .refl _⟩⟩

theorem withCapacity_repr (n : Nat) (hb : BuildHasher L R) : ReprG G (withCapacityAndHasher n hb) GroupSpec.empty :=
  ⟨[], [], ⟨by simp [withCapacityAndHasher, RawTable.withCapacity_entries],
    by simp [withCapacityAndHasher, RawTable.withCapacity_entries], .nil _ _ _⟩, by intro _ x hx; simp at hx,
    ⟨.refl _, .refl _⟩⟩

theorem clear_refines (m : GroupMap L R) : ReprG G m.clear GroupSpec.empty :=
  ⟨[], [], ⟨by simp [clear, RawTable.clear_entries], by simp [clear, RawTable.clear_entries], .nil _ _ _⟩,
    by intro _ x hx; simp at hx, ⟨.refl _, .refl _⟩⟩

theorem lenLeft_refines (h : ReprG G m c) : m.lenLeft = c.pairs.length := by
  obtain ⟨ls, rs, h, hf, ha⟩ := h
  rw [lenLeft, RawTable.len, h.left.length_eq, ha.pairs.length_eq, List.length_map, List.length_map]

theorem lenRight_refines (h : ReprG G m c) : m.lenRight = c.rights.length := by
  obtain ⟨ls, rs, h, hf, ha⟩ := h
  rw [lenRight, RawTable.len, h.right.length_eq, ha.rights.length_eq, List.length_map, List.length_map]

theorem isEmpty_refines (h : ReprG G m c) : m.isEmpty = c.rights.isEmpty := by
  rw [isEmpty, lenLeft_refines h, lenRight_refines h]
  have hs := h.sound
  cases hr : c.rights with
  | nil =>
    cases hp : c.pairs with
    | nil => rfl
    | cons p ps =>
      have := hs.owned p (by simp [hp])
      simp [hr] at this
  | cons r rs => simp

theorem iterLeft_refines (h : ReprG G m c) : m.iterLeft.Perm (c.pairs.map (·.1)) := by
  obtain ⟨ls, rs, h, hf, ha⟩ := h
  rw [iterLeft, RawTable.toList, List.map_map]
  refine (h.left.map _).trans (.trans ?_ (ha.pairs.map _).symm)
  rw [List.map_map, List.map_map]
  exact .refl _

theorem iterRight_refines (h : ReprG G m c) : m.iterRight.Perm c.rights := by
  obtain ⟨ls, rs, h, hf, ha⟩ := h
  rw [iterRight, RawTable.toList, List.map_map]
  refine (h.right.map _).trans (.trans ?_ ha.rights.symm)
  rw [List.map_map]
  exact .refl _

end Verif.GroupMap
