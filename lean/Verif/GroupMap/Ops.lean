import Verif.GroupMap.Tables
/-! The updates of `GroupMap` on the level of records. -/
set_option linter.unusedSectionVars false
namespace Verif.GroupMap
open GroupSpec

variable [RawImpl] [LawfulRaw] {L R : Type} [BEq L] [BEq R] [EquivBEq L] [EquivBEq R]
variable {m : GroupMap L R} {ls : List (LRec L R)} {rs : List (RRec R)} {x : LRec L R} {y z : RRec R} {l : L} {r : R}

theorem Rep.consL (h : Rep m (x :: ls) rs) : m.left.entries.Perm (toL m.hb x :: ls.map (toL m.hb)) := h.left
theorem Rep.consR (h : Rep m ls (y :: rs)) : m.right.entries.Perm (toR m.hb y :: rs.map (toR m.hb)) := h.right

theorem WF.others {hb : BuildHasher L R} {lc rc : Nat} (h : WF hb lc rc (x :: ls) rs) (hl : (l == x.l) = true) :
    ∀ a ∈ ls, (l == a.l) = false := fun a ha => beq_false_of_left hl (h.tailL a ha).2

theorem WF.othersR {hb : BuildHasher L R} {lc rc : Nat} (h : WF hb lc rc ls (y :: rs)) (hr : (r == y.r) = true) :
    ∀ a ∈ rs, (r == a.r) = false := fun a ha => beq_false_of_left hr (h.tailR a ha).2

theorem WF.idsApart {hb : BuildHasher L R} {lc rc : Nat} (h : WF hb lc rc (x :: ls) rs) :
    ∀ a ∈ ls, a.id ≠ x.id := fun a ha => (h.tailL a ha).1.symm

theorem WF.ridsApart {hb : BuildHasher L R} {lc rc : Nat} (h : WF hb lc rc ls (y :: rs)) :
    ∀ a ∈ rs, a.id ≠ y.id := fun a ha => (h.tailR a ha).1.symm

/-- only its right item refers to a left item -/
theorem WF.onlyOwner {hb : BuildHasher L R} {lc rc : Nat} (h : WF hb lc rc (x :: ls) (y :: rs)) (ho : y.id = x.own) :
    key hb x ∈ y.pairs.entries ∧ ∀ a ∈ rs, key hb x ∉ a.pairs.entries := by
  refine ⟨(h.mem_pairs List.mem_cons_self List.mem_cons_self).2 ho.symm, fun a ha hm => ?_⟩
  have := (h.mem_pairs List.mem_cons_self (List.mem_cons_of_mem _ ha)).1 hm
  exact h.ridsApart a ha (by rw [ho, this])

theorem forall_cons_with {s : PairSet} (h : ∀ a ∈ y :: rs, (r == a.r) = false) :
    ∀ a ∈ (⟨y.r, y.id, s⟩ : RRec R) :: rs, (r == a.r) = false := by
  intro a ha
  rcases List.mem_cons.1 ha with rfl | ha
  · exact h y List.mem_cons_self
  · exact h a (List.mem_cons_of_mem _ ha)

/-! ### `remove_left` -/

theorem removeLeft_none (h : Rep m ls rs) (hn : ∀ a ∈ ls, (l == a.l) = false) : m.removeLeft l = .ok (none, m) := by
  simp only [removeLeft, RawTable.removeEntry_none (h.noneL (keysL hn))]

theorem removeLeft_raw (hL : m.left.entries.Perm (toL m.hb x :: ls.map (toL m.hb)))
    (hR : m.right.entries.Perm (toR m.hb y :: rs.map (toR m.hb))) (hl : (l == x.l) = true)
    (hn : ∀ a ∈ ls, (l == a.l) = false) (hr : y.r = x.r) (hk : key m.hb x ∈ y.pairs.entries)
    (hnk : ∀ a ∈ rs, key m.hb x ∉ a.pairs.entries) :
    ∃ t1 t2, m.removeLeft l = .ok (some x.l, { m with left := t1, right := t2 }) ∧ t1.entries.Perm (ls.map (toL m.hb)) ∧
      t2.entries.Perm (toR m.hb ⟨y.r, y.id, y.pairs.remove (key m.hb x)⟩ :: rs.map (toR m.hb)) := by
  obtain ⟨t', e1, p1⟩ := removeL_eq hL hl hn
  have hke : (m.hb.hl l, (toL m.hb x).2.id) = key m.hb x := by simp [key, toL, m.hb.hl_congr _ _ hl]
  obtain ⟨w, e2, p2⟩ := getMutR_pair hR hk hnk
  refine ⟨t', w ⟨y.r, y.pairs.remove (key m.hb x), y.id⟩, ?_, p1, p2 _⟩
  unfold removeLeft
  simp only [e1, hke]
  rw [show (toL m.hb x).2.hash = m.hb.hr y.r by rw [hr]; rfl, e2]
  rfl

theorem removeLeft_some (h : Rep m (x :: ls) (y :: rs)) (hl : (l == x.l) = true) (ho : y.id = x.own) (hr : y.r = x.r) :
    ∃ m', m.removeLeft l = .ok (some x.l, m') ∧
      Rep m' ls (⟨y.r, y.id, y.pairs.remove (key m.hb x)⟩ :: rs) ∧ m'.hb = m.hb ∧
      m'.leftCounter = m.leftCounter ∧ m'.rightCounter = m.rightCounter := by
  have ho' := h.wf.onlyOwner ho
  obtain ⟨t1, t2, e, p1, p2⟩ := removeLeft_raw h.consL h.consR hl (h.wf.others hl) hr ho'.1 ho'.2
  exact ⟨_, e, ⟨p1, p2, h.wf.dropLeft ho (PairSet.remove_perm _ _)⟩, rfl, rfl, rfl⟩

/-! ### `remove_right` -/

theorem removeAll_ok {hb : BuildHasher L R} (xs ls : List (LRec L R)) (t : RawTable (LeftItem L))
    (ht : t.entries.Perm ((xs ++ ls).map (toL hb))) (ha : (xs ++ ls).Pairwise ApartL) :
    ∃ t', removeAll t (xs.map (key hb)) = .ok (xs.map (·.l), t') ∧ t'.entries.Perm (ls.map (toL hb)) := by
  induction xs generalizing t with
  | nil => exact ⟨t, rfl, ht⟩
  | cons x xs ih =>
    rw [List.cons_append] at ha
    have h2 := List.pairwise_cons.1 ha
    obtain ⟨t1, e1, p1⟩ := removeL_id (hb := hb) (x := x) (ls := xs ++ ls) (by simpa using ht) fun a ha => (h2.1 a ha).1.symm
    obtain ⟨t2, e2, p2⟩ := ih t1 p1 h2.2
    refine ⟨t2, ?_, p2⟩
    simp only [List.map_cons, removeAll, key] at e2 ⊢
    simp only [e1]
    simp [e2, toL, bind, Except.bind, pure, Except.pure]

omit [RawImpl] [LawfulRaw] in
theorem collectSet_go {T : Type} [BEq T] [EquivBEq T] (xs acc : List T)
    (h : (acc ++ xs).Pairwise fun a b => (a == b) = false) :
    xs.foldl (fun s x => if s.any (x == ·) then s else s ++ [x]) acc = acc ++ xs := by
  induction xs generalizing acc with
  | nil => simp
  | cons x xs ih =>
    rw [List.foldl_cons, if_neg ?_, ih]
    · simp
    · simpa using h
    · rw [Bool.not_eq_true, List.any_eq_false]
      intro a ha
      have := (List.pairwise_append.1 h).2.2 a ha x List.mem_cons_self
      rw [BEq.comm, this]; simp

omit [RawImpl] [LawfulRaw] in
theorem collectSet_eq {T : Type} [BEq T] [EquivBEq T] {xs : List T} (h : xs.Pairwise fun a b => (a == b) = false) :
    collectSet xs = xs := by
  rw [collectSet, collectSet_go xs [] (by simpa using h)]; rfl

/-- removing the left items a right item refers to -/
theorem removeAll_mine (h : Rep m ls (y :: rs)) :
    ∃ (qs : List (LRec L R)) (t' : RawTable (LeftItem L)), qs.Perm (mine ls y.id) ∧ removeAll m.left y.pairs.entries = .ok (qs.map (·.l), t') ∧
      t'.entries.Perm ((ls.filter fun x => !(x.own == y.id)).map (toL m.hb)) ∧
      collectSet (qs.map (·.l)) = qs.map (·.l) := by
  obtain ⟨qs, hq, e⟩ := perm_map_inv (h.wf.pairs y List.mem_cons_self)
  have hp : ls.Perm (qs ++ ls.filter fun x => !(x.own == y.id)) :=
    (List.filter_append_perm (fun x : LRec L R => x.own == y.id) ls).symm.trans (hq.append_right _)
  have ha := (hp.pairwise_iff (fun h => h.symm)).1 h.wf.apartL
  obtain ⟨t', e1, p1⟩ := removeAll_ok (hb := m.hb) qs _ m.left (h.left.trans (hp.map _)) ha
  refine ⟨qs, t', hq.symm, by rw [e, e1], p1, collectSet_eq ?_⟩
  rw [List.pairwise_map]
  exact (List.pairwise_append.1 ha).1.imp fun h => h.2

theorem removeRight_none (h : Rep m ls rs) (hn : ∀ a ∈ rs, (r == a.r) = false) : m.removeRight r = .ok (none, m) := by
  unfold removeRight
  rw [RawTable.removeEntry_none (h.noneR (keysR hn))]

theorem removeRight_some (h : Rep m ls (y :: rs)) (hr : (r == y.r) = true) :
    ∃ (ks : List L) (m' : GroupMap L R), m.removeRight r = .ok (some (ks, y.r), m') ∧ ks.Perm ((mine ls y.id).map (·.l)) ∧
      Rep m' (ls.filter fun x => !(x.own == y.id)) rs ∧ m'.hb = m.hb ∧
      m'.leftCounter = m.leftCounter ∧ m'.rightCounter = m.rightCounter := by
  obtain ⟨t1, e1, p1⟩ := removeR_eq h.consR hr (h.wf.othersR hr)
  obtain ⟨qs, t2, hq, e2, p2, e3⟩ := removeAll_mine h
  refine ⟨qs.map (·.l), { m with left := t2, right := t1 }, ?_, hq.map _, ⟨p2, p1, h.wf.dropRight⟩, rfl, rfl, rfl⟩
  unfold removeRight
  simp only [e1, toR, e2, e3, bind, Except.bind, pure, Except.pure]

theorem removeViaHashAndId_some (h : Rep m ls (y :: rs)) :
    ∃ (ks : List L) (m' : GroupMap L R), m.removeViaHashAndId (m.hb.hr y.r) y.id = .ok (some (ks, y.r), m') ∧ ks.Perm ((mine ls y.id).map (·.l)) ∧
      Rep m' (ls.filter fun x => !(x.own == y.id)) rs ∧ m'.hb = m.hb ∧
      m'.leftCounter = m.leftCounter ∧ m'.rightCounter = m.rightCounter := by
  obtain ⟨t1, e1, p1⟩ := removeR_id h.consR h.wf.ridsApart
  obtain ⟨qs, t2, hq, e2, p2, e3⟩ := removeAll_mine h
  refine ⟨qs.map (·.l), { m with left := t2, right := t1 }, ?_, hq.map _, ⟨p2, p1, h.wf.dropRight⟩, rfl, rfl, rfl⟩
  unfold removeViaHashAndId
  simp only [e1, toR, e2, bind, Except.bind, pure, Except.pure]

/-! ### Adding items -/

/-- the map with one more right item -/
theorem Rep.addRight (h : Rep m ls rs) (hn : ∀ a ∈ rs, (r == a.r) = false) {s : PairSet} (hs : s.entries = [])
    {t : RawTable (RightItem R)} (ht : t.entries.Perm ((m.hb.hr r, ⟨r, s, m.rightCounter⟩) :: m.right.entries)) :
    Rep { m with right := t, rightCounter := m.rightCounter + 1 } ls (⟨r, m.rightCounter, s⟩ :: rs) :=
  ⟨h.left, ht.trans (h.right.cons _), h.wf.addRight hn hs⟩

/-- the new pair of an absent left item and an absent right item -/
theorem addBoth (h : Rep m ls rs) (hl : ∀ a ∈ ls, (l == a.l) = false) (hr : ∀ a ∈ rs, (r == a.r) = false) {n : Nat} :
    Rep { m with
          left := m.left.insert (m.hb.hl l) ⟨l, m.hb.hr r, m.rightCounter, m.leftCounter⟩ (·.hashWith m.hb.hl)
          right := m.right.insert (m.hb.hr r)
            ⟨r, (PairSet.new n).insert (m.hb.hl l, m.leftCounter), m.rightCounter⟩ (·.hashWith m.hb.hr)
          leftCounter := m.leftCounter + 1, rightCounter := m.rightCounter + 1 }
      (⟨l, m.leftCounter, r, m.rightCounter, m.rightCounter⟩ :: ls)
      (⟨r, m.rightCounter, (PairSet.new n).insert (m.hb.hl l, m.leftCounter)⟩ :: rs) where
  left := (RawTable.insert_perm _ _ _ (hashesL h.left)).trans (h.left.cons _)
  right := (RawTable.insert_perm _ _ _ (hashesR h.right)).trans (h.right.cons _)
  wf := by
    have h1 := h.wf.addRight hr (PairSet.new_entries n)
    refine h1.addLeft (j := m.rightCounter) hl (fun a ha => Nat.ne_of_lt (h.wf.boundL a ha)) (Nat.lt_succ_self _) (Nat.le_succ _) ?_
    exact PairSet.insert_perm (by rw [PairSet.new_entries]; simp)

theorem insert_none_none (h : Rep m ls rs) (hl : ∀ a ∈ ls, (l == a.l) = false) (hr : ∀ a ∈ rs, (r == a.r) = false) :
    ∃ m' s, m.insert l r = .ok m' ∧
      Rep m' (⟨l, m.leftCounter, r, m.rightCounter, m.rightCounter⟩ :: ls) (⟨r, m.rightCounter, s⟩ :: rs) ∧ m'.hb = m.hb ∧
      m'.leftCounter = m.leftCounter + 1 ∧ m'.rightCounter = m.rightCounter + 1 := by
  refine ⟨_, _, ?_, addBoth (n := 1) h hl hr, rfl, rfl, rfl⟩
  simp only [insert, RawTable.getMut_none (h.noneL (keysL hl)), RawTable.getMut_none (h.noneR (keysR hr))]

theorem insert_none_some (h : Rep m ls (y :: rs)) (hl : ∀ a ∈ ls, (l == a.l) = false) (hr : (r == y.r) = true) :
    ∃ m' s, m.insert l r = .ok m' ∧
      Rep m' (⟨l, m.leftCounter, y.r, y.id, y.id⟩ :: ls) (⟨y.r, y.id, s⟩ :: rs) ∧ m'.hb = m.hb ∧
      m'.leftCounter = m.leftCounter + 1 ∧ m'.rightCounter = m.rightCounter := by
  obtain ⟨w, e, p⟩ := getMutR_eq h.consR hr (h.wf.othersR hr)
  have hi : ∀ a ∈ ls, a.id ≠ m.leftCounter := fun a ha => Nat.ne_of_lt (h.wf.boundL a ha)
  refine ⟨{ m with left := m.left.insert (m.hb.hl l) ⟨l, m.hb.hr r, y.id, m.leftCounter⟩ (·.hashWith m.hb.hl)
                   right := w ⟨y.r, y.pairs.insert (m.hb.hl l, m.leftCounter), y.id⟩
                   leftCounter := m.leftCounter + 1 }, y.pairs.insert (m.hb.hl l, m.leftCounter), ?_, ⟨?_, p _, ?_⟩, rfl, rfl, rfl⟩
  · simp only [insert, RawTable.getMut_none (h.noneL (keysL hl)), e, toR]
  · refine (RawTable.insert_perm _ _ _ (hashesL h.left)).trans ?_
    rw [List.map_cons, toL, m.hb.hr_congr _ _ hr]
    exact h.left.cons _
  · exact h.wf.addLeft hl hi (Nat.lt_succ_self _) (Nat.le_succ _)
      (PairSet.insert_perm (h.wf.new_not_mem hi List.mem_cons_self _))

theorem insert_some_none (h : Rep m (x :: ls) (y :: rs)) (hl : (l == x.l) = true) (ho : y.id = x.own) (hy : y.r = x.r)
    (hr : ∀ a ∈ y :: rs, (r == a.r) = false) :
    ∃ m' s, m.insert l r = .ok m' ∧
      Rep m' (⟨x.l, x.id, r, m.rightCounter, m.rightCounter⟩ :: ls)
        (⟨r, m.rightCounter, s⟩ :: ⟨y.r, y.id, y.pairs.remove (key m.hb x)⟩ :: rs) ∧ m'.hb = m.hb ∧
      m'.leftCounter = m.leftCounter ∧ m'.rightCounter = m.rightCounter + 1 := by
  obtain ⟨w, e, p⟩ := getMutL_eq h.consL hl (h.wf.others hl)
  have ho' := h.wf.onlyOwner ho
  obtain ⟨w2, e2, p2⟩ := getMutR_pair h.consR ho'.1 ho'.2
  have hk : (m.hb.hl l, x.id) = key m.hb x := by simp [key, m.hb.hl_congr _ _ hl]
  refine ⟨{ m with left := w ⟨x.l, m.hb.hr r, m.rightCounter, x.id⟩
                   right := (w2 ⟨y.r, y.pairs.remove (key m.hb x), y.id⟩).insert (m.hb.hr r)
                     ⟨r, (PairSet.new 1).insert (key m.hb x), m.rightCounter⟩ (·.hashWith m.hb.hr)
                   rightCounter := m.rightCounter + 1 }, (PairSet.new 1).insert (key m.hb x), ?_, ⟨p _, ?_, ?_⟩, rfl, rfl, rfl⟩
  · simp only [insert, e, RawTable.getMut_none (h.noneR (keysR hr)), toL, hk]
    simp only [show m.hb.hr x.r = m.hb.hr y.r by rw [hy], e2, toR]
  · exact (RawTable.insert_perm _ _ _ (hashesR (rs := ⟨y.r, y.id, y.pairs.remove (key m.hb x)⟩ :: rs) (p2 _))).trans ((p2 _).cons _)
  · have h1 := h.wf.dropLeft ho (PairSet.remove_perm y.pairs (key m.hb x))
    have h2 := h1.addRight (r := r) (forall_cons_with hr) (PairSet.new_entries 1)
    exact h2.addLeft (h.wf.tailL · · |>.2) h.wf.idsApart (h.wf.boundL x List.mem_cons_self) (Nat.le_refl _)
      (PairSet.insert_perm (by rw [PairSet.new_entries]; simp))

theorem insert_some_some (h : Rep m (x :: ls) (y :: z :: rs)) (hl : (l == x.l) = true) (hr : (r == y.r) = true)
    (hz : z.id = x.own) (hzr : z.r = x.r) (hf : x.rid = x.own) :
    ∃ m' s, m.insert l r = .ok m' ∧
      Rep m' (⟨x.l, x.id, y.r, y.id, y.id⟩ :: ls)
        (⟨y.r, y.id, s⟩ :: ⟨z.r, z.id, z.pairs.remove (key m.hb x)⟩ :: rs) ∧ m'.hb = m.hb ∧
      m'.leftCounter = m.leftCounter ∧ m'.rightCounter = m.rightCounter := by
  obtain ⟨w, e, p⟩ := getMutL_eq h.consL hl (h.wf.others hl)
  obtain ⟨w2, e2, p2⟩ := getMutR_eq h.consR hr (h.wf.othersR hr)
  have hk : (m.hb.hl l, x.id) = key m.hb x := by simp [key, m.hb.hl_congr _ _ hl]
  have hw := h.wf.perm (.refl _) (.swap z y rs)
  have hid : ∀ a ∈ (⟨y.r, y.id, y.pairs.insert (key m.hb x)⟩ : RRec R) :: rs, a.id ≠ z.id := by
    intro a ha
    rcases List.mem_cons.1 ha with rfl | ha
    · exact hw.ridsApart y List.mem_cons_self
    · exact hw.ridsApart a (List.mem_cons_of_mem _ ha)
  obtain ⟨w3, e3, p3⟩ := getMutR_id (hb := m.hb) (t := w2 ⟨y.r, y.pairs.insert (key m.hb x), y.id⟩)
    (rs := ⟨y.r, y.id, y.pairs.insert (key m.hb x)⟩ :: rs) ((p2 _).trans (.swap _ _ _)) hid
  refine ⟨{ m with left := w ⟨x.l, m.hb.hr r, y.id, x.id⟩
                   right := w3 ⟨z.r, z.pairs.remove (key m.hb x), z.id⟩ },
    y.pairs.insert (key m.hb x), ?_, ⟨?_, (p3 _).trans (.swap _ _ _), ?_⟩, rfl, rfl, rfl⟩
  · simp only [insert, e, e2, toL, toR, hk]
    simp only [show m.hb.hr x.r = m.hb.hr z.r by rw [hzr], hf, ← hz, e3, toR]
  · have := p ⟨x.l, m.hb.hr r, y.id, x.id⟩
    rw [List.map_cons, toL, ← m.hb.hr_congr _ _ hr]
    exact this
  · have h1 := hw.dropLeft hz (PairSet.remove_perm z.pairs (key m.hb x))
    have h2 := h1.perm (.refl _) (.swap y _ rs)
    exact h2.addLeft (h.wf.tailL · · |>.2) h.wf.idsApart (h.wf.boundL x List.mem_cons_self) (Nat.le_refl _)
      (PairSet.insert_perm (by
        rw [h.wf.mem_pairs List.mem_cons_self List.mem_cons_self]
        exact fun hc => h.wf.ridsApart z List.mem_cons_self (by rw [hz, hc])))

/-! ### `pair` -/

theorem pair_same (h : Rep m (x :: ls) (y :: rs)) (hl : (l == x.l) = true) (hr : (r == y.r) = true)
    (ho : y.id = x.own) (hy : y.r = x.r) (hf : x.rid = x.own) :
    ∃ m' s, m.pair l r = .ok (true, m') ∧
      Rep m' (⟨x.l, x.id, y.r, y.id, y.id⟩ :: ls) (⟨y.r, y.id, s⟩ :: rs) ∧ m'.hb = m.hb ∧
      m'.leftCounter = m.leftCounter ∧ m'.rightCounter = m.rightCounter := by
  obtain ⟨w, e, p⟩ := getMutL_eq h.consL hl (h.wf.others hl)
  have e2 := getR_eq h.consR hr (h.wf.othersR hr)
  obtain ⟨w3, e3, p3⟩ := getMutR_id h.consR h.wf.ridsApart
  have hk : (m.hb.hl l, x.id) = key m.hb x := by simp [key, m.hb.hl_congr _ _ hl]
  obtain ⟨w4, e4, p4⟩ := getMutR_eq (hb := m.hb) (t := w3 ⟨y.r, y.pairs.remove (key m.hb x), y.id⟩)
    (y := ⟨y.r, y.id, y.pairs.remove (key m.hb x)⟩) (p3 _) hr (h.wf.othersR hr)
  refine ⟨{ m with left := w ⟨x.l, m.hb.hr r, y.id, x.id⟩
                   right := w4 ⟨y.r, (y.pairs.remove (key m.hb x)).insert (key m.hb x), y.id⟩ },
    (y.pairs.remove (key m.hb x)).insert (key m.hb x), ?_, ⟨?_, p4 _, ?_⟩, rfl, rfl, rfl⟩
  · simp only [pair, e, e2, toL, toR, hk]
    simp only [show m.hb.hr x.r = m.hb.hr y.r by rw [hy], hf, ← ho, e3, toR, e4]
  · have := p ⟨x.l, m.hb.hr r, y.id, x.id⟩
    rw [List.map_cons, toL, ← m.hb.hr_congr _ _ hr]
    exact this
  · have h1 := h.wf.dropLeft ho (PairSet.remove_perm y.pairs (key m.hb x))
    exact h1.addLeft (h.wf.tailL · · |>.2) h.wf.idsApart (h.wf.boundL x List.mem_cons_self) (Nat.le_refl _)
      (PairSet.insert_perm (h1.new_not_mem h.wf.idsApart List.mem_cons_self _))

theorem pair_move (h : Rep m (x :: ls) (y :: z :: rs)) (hl : (l == x.l) = true) (hr : (r == y.r) = true)
    (hz : z.id = x.own) (hzr : z.r = x.r) (hf : x.rid = x.own) :
    ∃ m' s, m.pair l r = .ok (true, m') ∧
      Rep m' (⟨x.l, x.id, y.r, y.id, y.id⟩ :: ls)
        (⟨y.r, y.id, s⟩ :: ⟨z.r, z.id, z.pairs.remove (key m.hb x)⟩ :: rs) ∧ m'.hb = m.hb ∧
      m'.leftCounter = m.leftCounter ∧ m'.rightCounter = m.rightCounter := by
  obtain ⟨w, e, p⟩ := getMutL_eq h.consL hl (h.wf.others hl)
  have e2 := getR_eq h.consR hr (h.wf.othersR hr)
  have hk : (m.hb.hl l, x.id) = key m.hb x := by simp [key, m.hb.hl_congr _ _ hl]
  have hw := h.wf.perm (.refl _) (.swap z y rs)
  obtain ⟨w3, e3, p3⟩ := getMutR_id (hb := m.hb) (y := z) (rs := y :: rs) (h.right.trans (.swap _ _ _)) hw.ridsApart
  have hn : ∀ a ∈ (⟨z.r, z.id, z.pairs.remove (key m.hb x)⟩ : RRec R) :: rs, (r == a.r) = false :=
    forall_cons_with (h.wf.othersR hr)
  obtain ⟨w4, e4, p4⟩ := getMutR_eq (hb := m.hb) (t := w3 ⟨z.r, z.pairs.remove (key m.hb x), z.id⟩)
    (y := y) (rs := ⟨z.r, z.id, z.pairs.remove (key m.hb x)⟩ :: rs) ((p3 _).trans (.swap _ _ _)) hr hn
  refine ⟨{ m with left := w ⟨x.l, m.hb.hr r, y.id, x.id⟩
                   right := w4 ⟨y.r, y.pairs.insert (key m.hb x), y.id⟩ },
    y.pairs.insert (key m.hb x), ?_, ⟨?_, p4 _, ?_⟩, rfl, rfl, rfl⟩
  · simp only [pair, e, e2, toL, toR, hk]
    simp only [show m.hb.hr x.r = m.hb.hr z.r by rw [hzr], hf, ← hz, e3, toR, e4]
  · have := p ⟨x.l, m.hb.hr r, y.id, x.id⟩
    rw [List.map_cons, toL, ← m.hb.hr_congr _ _ hr]
    exact this
  · have h1 := hw.dropLeft hz (PairSet.remove_perm z.pairs (key m.hb x))
    have h2 := h1.perm (.refl _) (.swap y _ rs)
    exact h2.addLeft (h.wf.tailL · · |>.2) h.wf.idsApart (h.wf.boundL x List.mem_cons_self) (Nat.le_refl _)
      (PairSet.insert_perm (by
        rw [h.wf.mem_pairs List.mem_cons_self List.mem_cons_self]
        exact fun hc => h.wf.ridsApart z List.mem_cons_self (by rw [hz, hc])))

theorem pair_noL (h : Rep m ls rs) (hl : ∀ a ∈ ls, (l == a.l) = false) : m.pair l r = .ok (false, m) := by
  simp only [pair, RawTable.getMut_none (h.noneL (keysL hl))]

theorem pair_noR (h : Rep m ls rs) (hr : ∀ a ∈ rs, (r == a.r) = false) : m.pair l r = .ok (false, m) := by
  simp only [pair, RawTable.get_none (h.noneR (keysR hr))]
  split <;> simp_all

/-! ### `insert_left` -/

theorem insertLeft_noR (h : Rep m ls rs) (hr : ∀ a ∈ rs, (r == a.r) = false) : m.insertLeft l r = .ok (none, m) := by
  simp only [insertLeft, RawTable.getMut_none (h.noneR (keysR hr))]

theorem insertLeft_new (h : Rep m ls (y :: rs)) (hl : ∀ a ∈ ls, (l == a.l) = false) (hr : (r == y.r) = true) :
    ∃ m' s, m.insertLeft l r = .ok (none, m') ∧
      Rep m' (⟨l, m.leftCounter, y.r, y.id, y.id⟩ :: ls) (⟨y.r, y.id, s⟩ :: rs) ∧ m'.hb = m.hb ∧
      m'.leftCounter = m.leftCounter + 1 ∧ m'.rightCounter = m.rightCounter := by
  obtain ⟨w, e, p⟩ := getMutR_eq h.consR hr (h.wf.othersR hr)
  have hi : ∀ a ∈ ls, a.id ≠ m.leftCounter := fun a ha => Nat.ne_of_lt (h.wf.boundL a ha)
  refine ⟨{ m with left := m.left.insert (m.hb.hl l) ⟨l, m.hb.hr r, y.id, m.leftCounter⟩ (·.hashWith m.hb.hl)
                   right := w ⟨y.r, y.pairs.insert (m.hb.hl l, m.leftCounter), y.id⟩
                   leftCounter := m.leftCounter + 1 }, y.pairs.insert (m.hb.hl l, m.leftCounter), ?_, ⟨?_, p _, ?_⟩, rfl, rfl, rfl⟩
  · simp only [insertLeft, e, toR, removeLeft, RawTable.removeEntry_none (h.noneL (keysL hl)), bind, Except.bind, pure,
      Except.pure]
  · refine (RawTable.insert_perm _ _ _ (hashesL h.left)).trans ?_
    rw [List.map_cons, toL, m.hb.hr_congr _ _ hr]
    exact h.left.cons _
  · exact h.wf.addLeft hl hi (Nat.lt_succ_self _) (Nat.le_succ _)
      (PairSet.insert_perm (h.wf.new_not_mem hi List.mem_cons_self _))

theorem insertLeft_same (h : Rep m (x :: ls) (y :: rs)) (hl : (l == x.l) = true) (hr : (r == y.r) = true)
    (ho : y.id = x.own) (hy : y.r = x.r) :
    ∃ m' s, m.insertLeft l r = .ok (some x.l, m') ∧
      Rep m' (⟨l, m.leftCounter, y.r, y.id, y.id⟩ :: ls) (⟨y.r, y.id, s⟩ :: rs) ∧ m'.hb = m.hb ∧
      m'.leftCounter = m.leftCounter + 1 ∧ m'.rightCounter = m.rightCounter := by
  obtain ⟨w, e, p⟩ := getMutR_eq h.consR hr (h.wf.othersR hr)
  have hi : ∀ a ∈ x :: ls, a.id ≠ m.leftCounter := fun a ha => Nat.ne_of_lt (h.wf.boundL a ha)
  have ho' := h.wf.onlyOwner ho
  have hins := PairSet.insert_perm (h.wf.new_not_mem hi List.mem_cons_self (m.hb.hl l))
  have hkm : key m.hb x ∈ (y.pairs.insert (m.hb.hl l, m.leftCounter)).entries :=
    hins.mem_iff.2 (List.mem_cons_of_mem _ ho'.1)
  obtain ⟨t1, t2, e2, p1, p2⟩ := removeLeft_raw
    (m := { m with right := w ⟨y.r, y.pairs.insert (m.hb.hl l, m.leftCounter), y.id⟩ })
    (y := ⟨y.r, y.id, y.pairs.insert (m.hb.hl l, m.leftCounter)⟩) (l := l)
    h.consL (p _) hl (h.wf.others hl) hy hkm ho'.2
  refine ⟨{ m with left := t1.insert (m.hb.hl l) ⟨l, m.hb.hr r, y.id, m.leftCounter⟩ (·.hashWith m.hb.hl)
                   right := t2, leftCounter := m.leftCounter + 1 }, _, ?_, ⟨?_, p2, ?_⟩, rfl, rfl, rfl⟩
  · simp only [insertLeft, e, toR, e2, bind, Except.bind, pure, Except.pure]
  · refine (RawTable.insert_perm _ _ _ (hashesL p1)).trans ?_
    rw [List.map_cons, toL, m.hb.hr_congr _ _ hr]
    exact p1.cons _
  · have h1 := h.wf.dropLeft ho (PairSet.remove_perm y.pairs (key m.hb x))
    refine h1.addLeft (fun a ha => h.wf.others hl a ha) (fun a ha => hi a (List.mem_cons_of_mem _ ha)) (Nat.lt_succ_self _)
      (Nat.le_succ _) ?_
    refine (PairSet.remove_perm _ _).trans ((hins.erase _).trans ?_)
    rw [List.erase_cons_tail (by
      have := hi x List.mem_cons_self
      simp [key]; intro _ hc; exact this hc.symm)]
    exact (PairSet.remove_perm y.pairs (key m.hb x)).symm.cons _

theorem insertLeft_move (h : Rep m (x :: ls) (y :: z :: rs)) (hl : (l == x.l) = true) (hr : (r == y.r) = true)
    (hz : z.id = x.own) (hzr : z.r = x.r) :
    ∃ m' s, m.insertLeft l r = .ok (some x.l, m') ∧
      Rep m' (⟨l, m.leftCounter, y.r, y.id, y.id⟩ :: ls)
        (⟨y.r, y.id, s⟩ :: ⟨z.r, z.id, z.pairs.remove (key m.hb x)⟩ :: rs) ∧ m'.hb = m.hb ∧
      m'.leftCounter = m.leftCounter + 1 ∧ m'.rightCounter = m.rightCounter := by
  obtain ⟨w, e, p⟩ := getMutR_eq h.consR hr (h.wf.othersR hr)
  have hi : ∀ a ∈ x :: ls, a.id ≠ m.leftCounter := fun a ha => Nat.ne_of_lt (h.wf.boundL a ha)
  have hw := h.wf.perm (.refl _) (.swap z y rs)
  have ho' := hw.onlyOwner hz
  have hins := PairSet.insert_perm (h.wf.new_not_mem hi List.mem_cons_self (m.hb.hl l))
  have hnk : ∀ a ∈ (⟨y.r, y.id, y.pairs.insert (m.hb.hl l, m.leftCounter)⟩ : RRec R) :: rs, key m.hb x ∉ a.pairs.entries := by
    intro a ha
    rcases List.mem_cons.1 ha with rfl | ha
    · simp only
      rw [hins.mem_iff, List.mem_cons, not_or]
      refine ⟨fun hc => ?_, ho'.2 y List.mem_cons_self⟩
      exact hi x List.mem_cons_self (Prod.ext_iff.1 hc).2
    · exact ho'.2 a (List.mem_cons_of_mem _ ha)
  obtain ⟨t1, t2, e2, p1, p2⟩ := removeLeft_raw
    (m := { m with right := w ⟨y.r, y.pairs.insert (m.hb.hl l, m.leftCounter), y.id⟩ })
    (y := z) (rs := ⟨y.r, y.id, y.pairs.insert (m.hb.hl l, m.leftCounter)⟩ :: rs) (l := l)
    h.consL ((p _).trans (.swap _ _ _)) hl (h.wf.others hl) hzr ho'.1 hnk
  refine ⟨{ m with left := t1.insert (m.hb.hl l) ⟨l, m.hb.hr r, y.id, m.leftCounter⟩ (·.hashWith m.hb.hl)
                   right := t2, leftCounter := m.leftCounter + 1 }, y.pairs.insert (m.hb.hl l, m.leftCounter), ?_,
    ⟨?_, p2.trans (.swap _ _ _), ?_⟩, rfl, rfl, rfl⟩
  · simp only [insertLeft, e, toR, e2, bind, Except.bind, pure, Except.pure]
  · refine (RawTable.insert_perm _ _ _ (hashesL p1)).trans ?_
    rw [List.map_cons, toL, m.hb.hr_congr _ _ hr]
    exact p1.cons _
  · have h1 := hw.dropLeft hz (PairSet.remove_perm z.pairs (key m.hb x))
    have h2 := h1.perm (.refl _) (.swap y _ rs)
    exact h2.addLeft (fun a ha => h.wf.others hl a ha) (fun a ha => hi a (List.mem_cons_of_mem _ ha)) (Nat.lt_succ_self _)
      (Nat.le_succ _) hins

end Verif.GroupMap
