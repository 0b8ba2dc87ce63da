import Verif.GroupMap.Torn
/-!
`insert` and `insert_right` on maps in which some left items are unknown to the right items (what `insert` of a pair
that is there leaves behind, C62), and what `extend` makes of such maps.
-/
set_option linter.unusedSectionVars false
set_option linter.unusedSimpArgs false
namespace Verif.GroupMap
open GroupSpec

variable [RawImpl] [LawfulRaw] {L R : Type} [BEq L] [BEq R] [EquivBEq L] [EquivBEq R]
variable {m : GroupMap L R} {c : Contents L R} {ls ls' ts ts' os ks : List (LRec L R)} {rs rs' : List (RRec R)} {x : LRec L R} {y z : RRec R} {l : L} {r : R}

/-- `ls`: the left items in order; `ts`: those that no right item refers to -/
structure Half (m : GroupMap L R) (ls ts : List (LRec L R)) (rs : List (RRec R)) : Prop where
  left : m.left.entries.Perm ((ls ++ ts).map (toL m.hb))
  right : m.right.entries.Perm (rs.map (toR m.hb))
  wf : WF m.hb m.leftCounter m.rightCounter ls rs
  apart : (ls ++ ts).Pairwise ApartL
  bound : ∀ x ∈ ts, x.id < m.leftCounter
  fresh : ∀ x ∈ ls ++ ts, x.rid = x.own

/-- ids and items of the right side -/
def sig (rs : List (RRec R)) : List (Nat × R) := rs.map fun y => (y.id, y.r)

theorem sig_perm (h : rs.Perm rs') : (sig rs').Perm (sig rs) := (h.map _).symm

theorem Half.perm (h : Half m ls ts rs) (hl : ls.Perm ls') (ht : ts.Perm ts') (hr : rs.Perm rs') : Half m ls' ts' rs' where
  left := h.left.trans ((hl.append ht).map _)
  right := h.right.trans (hr.map _)
  wf := h.wf.perm hl hr
  apart := ((hl.append ht).pairwise_iff (fun h => h.symm)).1 h.apart
  bound := fun x hx => h.bound x (ht.mem_iff.2 hx)
  fresh := fun x hx => h.fresh x ((hl.append ht).mem_iff.2 hx)

theorem Half.ids (h : Half m ls ts rs) : ∀ a ∈ ls ++ ts, a.id ≠ m.leftCounter := fun a ha =>
  Nat.ne_of_lt ((List.mem_append.1 ha).elim (h.wf.boundL a) (h.bound a))

theorem Half.consT (h : Half m ls (x :: ts) rs) : m.left.entries.Perm (toL m.hb x :: (ls ++ ts).map (toL m.hb)) :=
  h.left.trans (List.perm_middle.map _)

theorem Half.apartT (h : Half m ls (x :: ts) rs) : ∀ a ∈ ls ++ ts, ApartL x a :=
  (List.pairwise_cons.1 ((List.perm_middle.pairwise_iff (fun h => h.symm)).1 h.apart)).1

theorem Half.apartL (h : Half m (x :: ls) ts rs) : ∀ a ∈ ls ++ ts, ApartL x a := (List.pairwise_cons.1 h.apart).1

theorem Half.noneR (h : Half m ls ts rs) {f : RightItem R → Bool} (hf : ∀ e ∈ rs.map (toR m.hb), f e.2 = false) : ∀ e ∈ m.right.entries, f e.2 = false :=
  fun e he => hf e (h.right.mem_iff.1 he)

theorem Half.noneL (h : Half m ls ts rs) {f : LeftItem L → Bool} (hf : ∀ e ∈ (ls ++ ts).map (toL m.hb), f e.2 = false) : ∀ e ∈ m.left.entries, f e.2 = false :=
  fun e he => hf e (h.left.mem_iff.1 he)

/-! ### `insert` -/

theorem half_none_none (h : Half m ls ts rs) (hl : ∀ a ∈ ls ++ ts, (l == a.l) = false) (hr : ∀ a ∈ rs, (r == a.r) = false) :
    ∃ m' s, m.insert l r = .ok m' ∧ Half m' (⟨l, m.leftCounter, r, m.rightCounter, m.rightCounter⟩ :: ls) ts (⟨r, m.rightCounter, s⟩ :: rs) ∧
      m'.rightCounter = m.rightCounter + 1 := by
  refine ⟨{ m with
          left := m.left.insert (m.hb.hl l) ⟨l, m.hb.hr r, m.rightCounter, m.leftCounter⟩ (·.hashWith m.hb.hl)
          right := m.right.insert (m.hb.hr r)
            ⟨r, (PairSet.new 1).insert (m.hb.hl l, m.leftCounter), m.rightCounter⟩ (·.hashWith m.hb.hr)
          leftCounter := m.leftCounter + 1, rightCounter := m.rightCounter + 1 }, (PairSet.new 1).insert (m.hb.hl l, m.leftCounter), ?_, ⟨?_, ?_, ?_, ?_, ?_, ?_⟩, rfl⟩
  · simp only [insert, RawTable.getMut_none (h.noneL (keysL hl)), RawTable.getMut_none (h.noneR (keysR hr))]
  · exact (RawTable.insert_perm _ _ _ (hashesL h.left)).trans (h.left.cons _)
  · exact (RawTable.insert_perm _ _ _ (hashesR h.right)).trans (h.right.cons _)
  · have h1 := h.wf.addRight hr (PairSet.new_entries 1)
    refine h1.addLeft (j := m.rightCounter) (fun a ha => hl a (List.mem_append_left _ ha)) (fun a ha => h.ids a (List.mem_append_left _ ha))
      (Nat.lt_succ_self _) (Nat.le_succ _) ?_
    exact PairSet.insert_perm (by rw [PairSet.new_entries]; simp)
  · exact List.pairwise_cons.2 ⟨fun a ha => ⟨(h.ids a ha).symm, hl a ha⟩, h.apart⟩
  · exact fun a ha => Nat.lt_succ_of_lt (h.bound a ha)
  · intro a ha
    rcases List.mem_cons.1 ha with rfl | ha
    · rfl
    · exact h.fresh a ha

theorem half_none_some (h : Half m ls ts (y :: rs)) (hl : ∀ a ∈ ls ++ ts, (l == a.l) = false) (hr : (r == y.r) = true) :
    ∃ m' s, m.insert l r = .ok m' ∧ Half m' (⟨l, m.leftCounter, y.r, y.id, y.id⟩ :: ls) ts (⟨y.r, y.id, s⟩ :: rs) ∧ m'.rightCounter = m.rightCounter := by
  obtain ⟨w, e, p⟩ := getMutR_eq h.right hr (h.wf.othersR hr)
  have hi : ∀ a ∈ ls, a.id ≠ m.leftCounter := fun a ha => h.ids a (List.mem_append_left _ ha)
  refine ⟨{ m with left := m.left.insert (m.hb.hl l) ⟨l, m.hb.hr r, y.id, m.leftCounter⟩ (·.hashWith m.hb.hl)
                   right := w ⟨y.r, y.pairs.insert (m.hb.hl l, m.leftCounter), y.id⟩
                   leftCounter := m.leftCounter + 1 }, y.pairs.insert (m.hb.hl l, m.leftCounter), ?_, ⟨?_, p _, ?_, ?_, ?_, ?_⟩, rfl⟩
  · simp only [insert, RawTable.getMut_none (h.noneL (keysL hl)), e, toR]
  · refine (RawTable.insert_perm _ _ _ (hashesL h.left)).trans ?_
    rw [List.cons_append, List.map_cons, toL, m.hb.hr_congr _ _ hr]
    exact h.left.cons _
  · exact h.wf.addLeft (fun a ha => hl a (List.mem_append_left _ ha)) hi (Nat.lt_succ_self _) (Nat.le_succ _)
      (PairSet.insert_perm (h.wf.new_not_mem hi List.mem_cons_self _))
  · exact List.pairwise_cons.2 ⟨fun a ha => ⟨(h.ids a ha).symm, hl a ha⟩, h.apart⟩
  · exact fun a ha => Nat.lt_succ_of_lt (h.bound a ha)
  · intro a ha
    rcases List.mem_cons.1 ha with rfl | ha
    · rfl
    · exact h.fresh a ha

theorem half_some_none (h : Half m (x :: ls) ts (y :: rs)) (hl : (l == x.l) = true) (ho : y.id = x.own) (hy : y.r = x.r)
    (hr : ∀ a ∈ y :: rs, (r == a.r) = false) :
    ∃ m' s s', m.insert l r = .ok m' ∧
      Half m' (⟨x.l, x.id, r, m.rightCounter, m.rightCounter⟩ :: ls) ts (⟨r, m.rightCounter, s⟩ :: ⟨y.r, y.id, s'⟩ :: rs) ∧ m'.rightCounter = m.rightCounter + 1 := by
  have hn : ∀ a ∈ ls ++ ts, (l == a.l) = false := fun a ha => beq_false_of_left hl (h.apartL a ha).2
  obtain ⟨w, e, p⟩ := getMutL_eq (hb := m.hb) h.left hl hn
  have ho' := h.wf.onlyOwner ho
  obtain ⟨w2, e2, p2⟩ := getMutR_pair h.right ho'.1 ho'.2
  have hk : (m.hb.hl l, x.id) = key m.hb x := by simp [key, m.hb.hl_congr _ _ hl]
  refine ⟨{ m with left := w ⟨x.l, m.hb.hr r, m.rightCounter, x.id⟩
                   right := (w2 ⟨y.r, y.pairs.remove (key m.hb x), y.id⟩).insert (m.hb.hr r)
                     ⟨r, (PairSet.new 1).insert (key m.hb x), m.rightCounter⟩ (·.hashWith m.hb.hr)
                   rightCounter := m.rightCounter + 1 }, (PairSet.new 1).insert (key m.hb x), y.pairs.remove (key m.hb x), ?_, ⟨p _, ?_, ?_, ?_, h.bound, ?_⟩, rfl⟩
  · simp only [insert, e, RawTable.getMut_none (h.noneR (keysR hr)), toL, hk]
    simp only [show m.hb.hr x.r = m.hb.hr y.r by rw [hy], e2, toR]
  · exact (RawTable.insert_perm _ _ _ (hashesR (rs := ⟨y.r, y.id, y.pairs.remove (key m.hb x)⟩ :: rs) (p2 _))).trans ((p2 _).cons _)
  · have h1 := h.wf.dropLeft ho (PairSet.remove_perm y.pairs (key m.hb x))
    have h2 := h1.addRight (r := r) (forall_cons_with hr) (PairSet.new_entries 1)
    exact h2.addLeft (h.wf.tailL · · |>.2) h.wf.idsApart (h.wf.boundL x List.mem_cons_self) (Nat.le_refl _)
      (PairSet.insert_perm (by rw [PairSet.new_entries]; simp))
  · exact List.pairwise_cons.2 ⟨fun a ha => h.apartL a ha, (List.pairwise_cons.1 h.apart).2⟩
  · intro a ha
    rcases List.mem_cons.1 ha with rfl | ha
    · rfl
    · exact h.fresh a (List.mem_cons_of_mem _ ha)

/-- the right table after both steps of `insert` with two right items -/
theorem half_two {hb : BuildHasher L R} {t : RawTable (RightItem R)} (ht : t.entries.Perm ((y :: z :: rs).map (toR hb))) (hr : (r == y.r) = true)
    (hn : ∀ a ∈ z :: rs, (r == a.r) = false) (hid : ∀ a ∈ rs, a.id ≠ z.id) (hyz : y.id ≠ z.id) (k : UInt64 × Nat) :
    ∃ w w', t.getMut (hb.hr r) (equivalentKeyRight r) = some ((toR hb y).2, w) ∧
      (w ⟨y.r, y.pairs.insert k, y.id⟩).getMut (hb.hr z.r) (rightWithRightId z.id) = some ((toR hb z).2, w') ∧
      (w' ⟨z.r, z.pairs.remove k, z.id⟩).entries.Perm
        (((⟨y.r, y.id, y.pairs.insert k⟩ : RRec R) :: ⟨z.r, z.id, z.pairs.remove k⟩ :: rs).map (toR hb)) := by
  obtain ⟨w2, e2, p2⟩ := getMutR_eq ht hr hn
  have hid : ∀ a ∈ (⟨y.r, y.id, y.pairs.insert k⟩ : RRec R) :: rs, a.id ≠ z.id := by
    intro a ha
    rcases List.mem_cons.1 ha with rfl | ha
    · exact hyz
    · exact hid a ha
  obtain ⟨w3, e3, p3⟩ := getMutR_id (hb := hb) (t := w2 ⟨y.r, y.pairs.insert k, y.id⟩)
    (rs := ⟨y.r, y.id, y.pairs.insert k⟩ :: rs) ((p2 _).trans (.swap _ _ _)) hid
  exact ⟨w2, w3, e2, e3, (p3 _).trans (.swap _ _ _)⟩

theorem half_some_some (h : Half m (x :: ls) ts (y :: z :: rs)) (hl : (l == x.l) = true) (hr : (r == y.r) = true)
    (hz : z.id = x.own) (hzr : z.r = x.r) :
    ∃ m' s s', m.insert l r = .ok m' ∧
      Half m' (⟨x.l, x.id, y.r, y.id, y.id⟩ :: ls) ts (⟨y.r, y.id, s⟩ :: ⟨z.r, z.id, s'⟩ :: rs) ∧ m'.rightCounter = m.rightCounter := by
  have hn : ∀ a ∈ ls ++ ts, (l == a.l) = false := fun a ha => beq_false_of_left hl (h.apartL a ha).2
  obtain ⟨w, e, p⟩ := getMutL_eq (hb := m.hb) h.left hl hn
  have hk : (m.hb.hl l, x.id) = key m.hb x := by simp [key, m.hb.hl_congr _ _ hl]
  have hw := h.wf.perm (.refl _) (.swap z y rs)
  have hf : x.rid = x.own := h.fresh x (by simp)
  obtain ⟨w2, w3, e2, e3, p3⟩ := half_two h.right hr (h.wf.othersR hr) (fun a ha => hw.ridsApart a (List.mem_cons_of_mem _ ha))
    (hw.ridsApart y List.mem_cons_self) (key m.hb x)
  refine ⟨{ m with left := w ⟨x.l, m.hb.hr r, y.id, x.id⟩
                   right := w3 ⟨z.r, z.pairs.remove (key m.hb x), z.id⟩ },
    y.pairs.insert (key m.hb x), z.pairs.remove (key m.hb x), ?_, ⟨?_, p3, ?_, ?_, h.bound, ?_⟩, rfl⟩
  · simp only [insert, e, e2, toL, toR, hk]
    simp only [show m.hb.hr x.r = m.hb.hr z.r by rw [hzr], hf, ← hz, e3, toR]
  · have := p ⟨x.l, m.hb.hr r, y.id, x.id⟩
    rw [List.cons_append, List.map_cons, toL, ← m.hb.hr_congr _ _ hr]
    exact this
  · have h1 := hw.dropLeft hz (PairSet.remove_perm z.pairs (key m.hb x))
    have h2 := h1.perm (.refl _) (.swap y _ rs)
    exact h2.addLeft (h.wf.tailL · · |>.2) h.wf.idsApart (h.wf.boundL x List.mem_cons_self) (Nat.le_refl _)
      (PairSet.insert_perm (by
        rw [h.wf.mem_pairs List.mem_cons_self List.mem_cons_self]
        exact fun hc => h.wf.ridsApart z List.mem_cons_self (by rw [hz, hc])))
  · exact List.pairwise_cons.2 ⟨fun a ha => h.apartL a ha, (List.pairwise_cons.1 h.apart).2⟩
  · intro a ha
    rcases List.mem_cons.1 ha with rfl | ha
    · rfl
    · exact h.fresh a (List.mem_cons_of_mem _ ha)

/-- an unknown left item that gets another right item is known again -/
theorem half_mend (h : Half m ls (x :: ts) (y :: z :: rs)) (hl : (l == x.l) = true) (hr : (r == y.r) = true)
    (hz : z.id = x.own) (hzr : z.r = x.r) :
    ∃ m' s s', m.insert l r = .ok m' ∧
      Half m' (⟨x.l, x.id, y.r, y.id, y.id⟩ :: ls) ts (⟨y.r, y.id, s⟩ :: ⟨z.r, z.id, s'⟩ :: rs) ∧ m'.rightCounter = m.rightCounter := by
  have hn : ∀ a ∈ ls ++ ts, (l == a.l) = false := fun a ha => beq_false_of_left hl (h.apartT a ha).2
  obtain ⟨w, e, p⟩ := getMutL_eq (hb := m.hb) h.consT hl hn
  have hk : (m.hb.hl l, x.id) = key m.hb x := by simp [key, m.hb.hl_congr _ _ hl]
  have hw := h.wf.perm (.refl _) (.swap z y rs)
  have hf : x.rid = x.own := h.fresh x (by simp)
  have hu : ∀ a ∈ ls, a.id ≠ x.id := fun a ha => (h.apartT a (List.mem_append_left _ ha)).1.symm
  obtain ⟨w2, w3, e2, e3, p3⟩ := half_two h.right hr (h.wf.othersR hr) (fun a ha => hw.ridsApart a (List.mem_cons_of_mem _ ha))
    (hw.ridsApart y List.mem_cons_self) (key m.hb x)
  refine ⟨{ m with left := w ⟨x.l, m.hb.hr r, y.id, x.id⟩
                   right := w3 ⟨z.r, z.pairs.remove (key m.hb x), z.id⟩ },
    y.pairs.insert (key m.hb x), z.pairs.remove (key m.hb x), ?_, ⟨?_, p3, ?_, ?_, fun a ha => h.bound a (List.mem_cons_of_mem _ ha), ?_⟩, rfl⟩
  · simp only [insert, e, e2, toL, toR, hk]
    simp only [show m.hb.hr x.r = m.hb.hr z.r by rw [hzr], hf, ← hz, e3, toR]
  · have := p ⟨x.l, m.hb.hr r, y.id, x.id⟩
    rw [List.cons_append, List.map_cons, toL, ← m.hb.hr_congr _ _ hr]
    exact this
  · have hz' : key m.hb x ∉ z.pairs.entries := h.wf.new_not_mem hu (List.mem_cons_of_mem _ List.mem_cons_self) _
    have h1 := hw.setPairs (s := z.pairs.remove (key m.hb x)) ((PairSet.remove_perm _ _).trans (by rw [List.erase_of_not_mem hz']))
    have h2 := h1.perm (.refl _) (.swap y _ rs)
    exact h2.addLeft (fun a ha => (h.apartT a (List.mem_append_left _ ha)).2) hu (h.bound x List.mem_cons_self) (Nat.le_refl _)
      (PairSet.insert_perm (h.wf.new_not_mem hu List.mem_cons_self _))
  · exact List.pairwise_cons.2 ⟨fun a ha => h.apartT a ha, (List.pairwise_cons.1 ((List.perm_middle.pairwise_iff (fun h => h.symm)).1 h.apart)).2⟩
  · intro a ha
    rcases List.mem_cons.1 ha with rfl | ha
    · rfl
    · exact h.fresh a (List.mem_append.2 ((List.mem_append.1 ha).imp_right (List.mem_cons_of_mem _)))

/-- the right table after both steps of `insert` with one right item -/
theorem half_one {hb : BuildHasher L R} {t : RawTable (RightItem R)} (ht : t.entries.Perm ((y :: rs).map (toR hb))) (hr : (r == y.r) = true)
    (hn : ∀ a ∈ rs, (r == a.r) = false) (hid : ∀ a ∈ rs, a.id ≠ y.id) (k : UInt64 × Nat) :
    ∃ w w', t.getMut (hb.hr r) (equivalentKeyRight r) = some ((toR hb y).2, w) ∧
      (w ⟨y.r, y.pairs.insert k, y.id⟩).getMut (hb.hr y.r) (rightWithRightId y.id) = some (⟨y.r, y.pairs.insert k, y.id⟩, w') ∧
      (w' ⟨y.r, (y.pairs.insert k).remove k, y.id⟩).entries.Perm (((⟨y.r, y.id, (y.pairs.insert k).remove k⟩ : RRec R) :: rs).map (toR hb)) := by
  obtain ⟨w2, e2, p2⟩ := getMutR_eq ht hr hn
  obtain ⟨w3, e3, p3⟩ := getMutR_id (hb := hb) (t := w2 ⟨y.r, y.pairs.insert k, y.id⟩) (y := ⟨y.r, y.id, y.pairs.insert k⟩) (rs := rs) (p2 _) hid
  exact ⟨w2, w3, e2, e3, p3 _⟩

/-- `insert` of a pair that is there: the right item forgets the left item -/
theorem half_same (h : Half m (x :: ls) ts (y :: rs)) (hl : (l == x.l) = true) (hr : (r == y.r) = true) (ho : y.id = x.own) (hy : y.r = x.r) :
    ∃ m' s, m.insert l r = .ok m' ∧ Half m' ls (x :: ts) (⟨y.r, y.id, s⟩ :: rs) ∧ m'.rightCounter = m.rightCounter := by
  have hn : ∀ a ∈ ls ++ ts, (l == a.l) = false := fun a ha => beq_false_of_left hl (h.apartL a ha).2
  obtain ⟨w, e, p⟩ := getMutL_eq (hb := m.hb) h.left hl hn
  have hk : (m.hb.hl l, x.id) = key m.hb x := by simp [key, m.hb.hl_congr _ _ hl]
  have hf : x.rid = x.own := h.fresh x (by simp)
  obtain ⟨w2, w3, e2, e3, p3⟩ := half_one h.right hr (h.wf.othersR hr) h.wf.ridsApart (key m.hb x)
  refine ⟨{ m with left := w ⟨x.l, m.hb.hr r, y.id, x.id⟩
                   right := w3 ⟨y.r, (y.pairs.insert (key m.hb x)).remove (key m.hb x), y.id⟩ },
    (y.pairs.insert (key m.hb x)).remove (key m.hb x), ?_, ⟨?_, p3, ?_, ?_, ?_, ?_⟩, rfl⟩
  · simp only [insert, e, e2, toL, toR, hk]
    simp only [show m.hb.hr x.r = m.hb.hr y.r by rw [hy], hf, ← ho, e3, toR]
  · have := p ⟨x.l, m.hb.hr r, y.id, x.id⟩
    refine .trans ?_ ((List.perm_middle (l₁ := ls) (l₂ := ts) (a := x)).map _).symm
    rw [List.map_cons, toL, ← hy, hf, ← ho, ← m.hb.hr_congr _ _ hr]
    exact this
  · refine h.wf.dropLeft ho ?_
    rw [PairSet.insert_of_mem (h.wf.onlyOwner ho).1]
    exact PairSet.remove_perm _ _
  · exact (List.perm_middle.pairwise_iff (fun h => h.symm)).2 h.apart
  · intro a ha
    rcases List.mem_cons.1 ha with rfl | ha
    · exact h.wf.boundL a List.mem_cons_self
    · exact h.bound a ha
  · exact fun a ha => h.fresh a (List.perm_middle.mem_iff.1 ha)

/-- `insert` of the pair again: nothing changes -/
theorem half_stay (h : Half m ls (x :: ts) (y :: rs)) (hl : (l == x.l) = true) (hr : (r == y.r) = true) (ho : y.id = x.own) (hy : y.r = x.r) :
    ∃ m' s, m.insert l r = .ok m' ∧ Half m' ls (x :: ts) (⟨y.r, y.id, s⟩ :: rs) ∧ m'.rightCounter = m.rightCounter := by
  have hn : ∀ a ∈ ls ++ ts, (l == a.l) = false := fun a ha => beq_false_of_left hl (h.apartT a ha).2
  obtain ⟨w, e, p⟩ := getMutL_eq (hb := m.hb) h.consT hl hn
  have hk : (m.hb.hl l, x.id) = key m.hb x := by simp [key, m.hb.hl_congr _ _ hl]
  have hf : x.rid = x.own := h.fresh x (by simp)
  have hu : ∀ a ∈ ls, a.id ≠ x.id := fun a ha => (h.apartT a (List.mem_append_left _ ha)).1.symm
  obtain ⟨w2, w3, e2, e3, p3⟩ := half_one h.right hr (h.wf.othersR hr) h.wf.ridsApart (key m.hb x)
  refine ⟨{ m with left := w ⟨x.l, m.hb.hr r, y.id, x.id⟩
                   right := w3 ⟨y.r, (y.pairs.insert (key m.hb x)).remove (key m.hb x), y.id⟩ },
    (y.pairs.insert (key m.hb x)).remove (key m.hb x), ?_, ⟨?_, p3, ?_, h.apart, h.bound, h.fresh⟩, rfl⟩
  · simp only [insert, e, e2, toL, toR, hk]
    simp only [show m.hb.hr x.r = m.hb.hr y.r by rw [hy], hf, ← ho, e3, toR]
  · have := p ⟨x.l, m.hb.hr r, y.id, x.id⟩
    refine .trans ?_ ((List.perm_middle (l₁ := ls) (l₂ := ts) (a := x)).map _).symm
    rw [List.map_cons, toL, ← hy, hf, ← ho, ← m.hb.hr_congr _ _ hr]
    exact this
  · refine h.wf.setPairs ?_
    refine (PairSet.remove_perm _ _).trans (((PairSet.insert_perm (h.wf.new_not_mem hu List.mem_cons_self _)).erase _).trans ?_)
    rw [key, List.erase_cons_head]

theorem half_panic_none (h : Half m ls (x :: ts) rs) (hl : (l == x.l) = true) (hr : ∀ a ∈ rs, (r == a.r) = false) :
    m.insert l r = .error .unwrapNone := by
  have hn : ∀ a ∈ ls ++ ts, (l == a.l) = false := fun a ha => beq_false_of_left hl (h.apartT a ha).2
  obtain ⟨w, e, -⟩ := getMutL_eq (hb := m.hb) h.consT hl hn
  have hu : ∀ a ∈ ls, a.id ≠ x.id := fun a ha => (h.apartT a (List.mem_append_left _ ha)).1.symm
  have : ∀ k k', m.right.getMut k (rightWithLeftPair (k', x.id)) = none := fun k k' => by
    refine RawTable.getMut_none (h.noneR fun e he => ?_)
    obtain ⟨y, hy, rfl⟩ := List.mem_map.1 he
    refine eq_false_of_ne_true' fun hc => ?_
    exact h.wf.new_not_mem hu hy k' (PairSet.contains_iff.1 hc)
  simp only [insert, e, RawTable.getMut_none (h.noneR (keysR hr)), toL, this]

theorem half_panic_gone (h : Half m ls (x :: ts) (y :: rs)) (hl : (l == x.l) = true) (hr : (r == y.r) = true) (hg : ∀ a ∈ y :: rs, a.id ≠ x.own) :
    m.insert l r = .error .unwrapNone := by
  have hn : ∀ a ∈ ls ++ ts, (l == a.l) = false := fun a ha => beq_false_of_left hl (h.apartT a ha).2
  obtain ⟨w, e, -⟩ := getMutL_eq (hb := m.hb) h.consT hl hn
  obtain ⟨w2, e2, p2⟩ := getMutR_eq h.right hr (h.wf.othersR hr)
  have hf : x.rid = x.own := h.fresh x (by simp)
  have : ∀ k s, (w2 ⟨y.r, s, y.id⟩).getMut k (rightWithRightId x.own) = none := fun k s => by
    refine RawTable.getMut_none fun e he => ?_
    rcases List.mem_cons.1 ((p2 _).mem_iff.1 he) with rfl | he
    · simpa [rightWithRightId] using hg y List.mem_cons_self
    · obtain ⟨a, ha, rfl⟩ := List.mem_map.1 he
      simpa [rightWithRightId, toR] using hg a (List.mem_cons_of_mem _ ha)
  simp only [insert, e, e2, toL, toR, hf, this]

/-! ### `insert_right` -/

theorem Half.addRight (h : Half m ls ts rs) (hn : ∀ a ∈ rs, (r == a.r) = false) :
    ∃ s, Half { m with rightCounter := m.rightCounter + 1, right := m.right.insert (m.hb.hr r) ⟨r, PairSet.new 0, m.rightCounter⟩ (·.hashWith m.hb.hr) }
      ls ts (⟨r, m.rightCounter, s⟩ :: rs) :=
  ⟨PairSet.new 0, h.left, (RawTable.insert_perm _ _ _ (hashesR h.right)).trans (h.right.cons _), h.wf.addRight hn (PairSet.new_entries 0), h.apart, h.bound, h.fresh⟩

theorem half_insertRight_none (h : Half m ls ts rs) (hn : ∀ a ∈ rs, (r == a.r) = false) :
    ∃ o m' s, m.insertRight r = .ok (o, m') ∧ Half m' ls ts (⟨r, m.rightCounter, s⟩ :: rs) ∧ m'.rightCounter = m.rightCounter + 1 := by
  obtain ⟨s, h'⟩ := h.addRight hn
  refine ⟨none, _, s, ?_, h', rfl⟩
  simp only [insertRight, removeRight, RawTable.removeEntry_none (h.noneR (keysR hn)), bind, Except.bind, pure, Except.pure]

theorem half_insertRight_some (h : Half m ls ts (y :: rs)) (hr : (r == y.r) = true) :
    ∃ o m' s, m.insertRight r = .ok (o, m') ∧ Half m' (ls.filter fun x => !(x.own == y.id)) ts (⟨r, m.rightCounter, s⟩ :: rs) ∧
      m'.rightCounter = m.rightCounter + 1 := by
  have hn := h.wf.othersR hr
  obtain ⟨t1, e1, p1⟩ := removeR_eq (hb := m.hb) h.right hr hn
  obtain ⟨qs, hq, e⟩ := perm_map_inv (h.wf.pairs y List.mem_cons_self)
  have hp : (ls ++ ts).Perm (qs ++ ((ls.filter fun x => !(x.own == y.id)) ++ ts)) := by
    rw [← List.append_assoc]
    exact ((List.filter_append_perm (fun x : LRec L R => x.own == y.id) ls).symm.trans (hq.append_right _)).append_right _
  have ha := (hp.pairwise_iff (fun h => h.symm)).1 h.apart
  obtain ⟨t2, e2, p2⟩ := removeAll_ok (hb := m.hb) qs _ m.left (h.left.trans (hp.map _)) ha
  rw [← e] at e2
  have h' : Half { m with left := t2, right := t1 } (ls.filter fun x => !(x.own == y.id)) ts rs :=
    ⟨p2, p1, h.wf.dropRight, (List.pairwise_append.1 ha).2.1, h.bound, fun a ha => h.fresh a (hp.mem_iff.2 (List.mem_append_right _ ha))⟩
  obtain ⟨s, h''⟩ := h'.addRight hn
  refine ⟨some (collectSet (qs.map (·.l)), y.r), _, s, ?_, h'', rfl⟩
  simp only [insertRight, removeRight, e1, toR, e2, bind, Except.bind, pure, Except.pure]

/-! ### Both, with what the left items say -/

/-- `os`: unknown left items whose right item is there; `ks`: those whose right item is gone -/
structure Mid (m : GroupMap L R) (ls os ks : List (LRec L R)) (rs : List (RRec R)) : Prop where
  half : Half m ls (os ++ ks) rs
  owned : ∀ x ∈ os, (x.own, x.r) ∈ sig rs
  gone : ∀ x ∈ ks, x.own < m.rightCounter ∧ ∀ p ∈ sig rs, p.1 ≠ x.own

theorem Mid.finish (h : Mid m ls os ks rs) (ha : Abs (ls ++ os) rs c) {m' : GroupMap L R} {os' A : List (LRec L R)} (hh : Half m' ls' (os' ++ ks) rs')
    (ho : ∀ x ∈ os', (x.own, x.r) ∈ sig rs)
    (hs : (findR c r = none ∧ x.r = r ∧ (sig rs').Perm ((m.rightCounter, r) :: sig rs) ∧ m'.rightCounter = m.rightCounter + 1) ∨
      (findR c r = some x.r ∧ (sig rs').Perm (sig rs) ∧ m'.rightCounter = m.rightCounter))
    (he : (eraseL c l).pairs.Perm (A.map fun x => (x.l, x.r))) (hx : ((findL c l).map (·.1)).getD l = x.l) (hA : (ls' ++ os').Perm (x :: A)) :
    Mid m' ls' os' ks rs' ∧ Abs (ls' ++ os') rs' (GroupSpec.insert c l r) := by
  have hmap : ∀ qs : List (RRec R), qs.map (·.r) = (sig qs).map (·.2) := fun qs => by rw [sig, List.map_map]; rfl
  have hp : ((((findL c l).map (·.1)).getD l, x.r) :: (eraseL c l).pairs).Perm ((ls' ++ os').map fun x => (x.l, x.r)) := by
    rw [hx]; exact (he.cons _).trans (hA.map fun a : LRec L R => (a.l, a.r)).symm
  rcases hs with ⟨f, e, hs, hc⟩ | ⟨f, hs, hc⟩
  · refine ⟨⟨hh, fun a ha => hs.mem_iff.2 (List.mem_cons_of_mem _ (ho a ha)), fun a hk => ⟨by have := (h.gone a hk).1; omega, fun p hp => ?_⟩⟩, ?_, ?_⟩
    · rcases List.mem_cons.1 (hs.mem_iff.1 hp) with rfl | hp
      · have := (h.gone a hk).1; simp; omega
      · exact (h.gone a hk).2 p hp
    · simp only [GroupSpec.insert, f]
      rw [hmap]
      refine .trans ?_ (hs.map _).symm
      rw [List.map_cons, ← hmap]
      exact ha.rights.cons _
    · simp only [GroupSpec.insert, f, Option.getD_none]
      rw [← e]; exact hp
  · refine ⟨⟨hh, fun a ha => hs.mem_iff.2 (ho a ha), fun a hk => ⟨by rw [hc]; exact (h.gone a hk).1, fun p hp => (h.gone a hk).2 p (hs.mem_iff.1 hp)⟩⟩, ?_, ?_⟩
    · simp only [GroupSpec.insert, f]
      rw [hmap]
      refine .trans ?_ (hs.map _).symm
      rw [← hmap]; exact ha.rights
    · simp only [GroupSpec.insert, f, Option.getD_some]; exact hp

theorem Half.absent (h : Half m ls (x :: ts) rs) (hl : (l == x.l) = true) : ∀ a ∈ ls ++ ts, (l == a.l) = false :=
  fun a ha => beq_false_of_left hl (h.apartT a ha).2

theorem anyR_iff (ha : Abs os rs c) : c.rights.any (r == ·) = rs.any (r == ·.r) := by
  rw [any_eq_of_perm ha.rights, List.any_map]; rfl

theorem beq_false_swap {a l : L} (h : (a == l) = true) {b : L} (hb : (l == b) = false) : (a == b) = false := by
  rw [BEq.congr_left h]; exact hb

theorem any_keep (hn : ∀ b ∈ os, (l == b.l) = false) (a : L) : os.any (a == ·.l) = if a == l then false else os.any (a == ·.l) := by
  split
  · next h =>
    rw [List.any_eq_false]
    intro b hb
    rw [beq_false_swap h (hn b hb)]; simp
  · rfl

theorem any_drop (hl : (l == x.l) = true) (hn : ∀ b ∈ os, (l == b.l) = false) (a : L) :
    os.any (a == ·.l) = if a == l then false else (x :: os).any (a == ·.l) := by
  rw [any_keep hn a]
  split
  · rfl
  · next h => rw [List.any_cons, ← BEq.congr_right hl, eq_false_of_ne_true' h, Bool.false_or]

theorem any_put (hl : (l == x.l) = true) (a : L) :
    (x :: os).any (a == ·.l) = if a == l then true else os.any (a == ·.l) := by
  rw [List.any_cons, ← BEq.congr_right hl]
  cases a == l <;> simp

/-- what `insert` does, in the end -/
theorem insert_mid (h : Mid m ls os ks rs) (ha : Abs (ls ++ os) rs c) (l : L) (r : R) :
    (m.insert l r = .error .unwrapNone ∧ (ks.any (l == ·.l) = true ∨ os.any (l == ·.l) = true ∧ c.rights.any (r == ·) = false)) ∨
    ∃ m' ls' os' rs', m.insert l r = .ok m' ∧ Mid m' ls' os' ks rs' ∧ Abs (ls' ++ os') rs' (GroupSpec.insert c l r) ∧
      (os.any (l == ·.l) = true → c.rights.any (r == ·) = true) ∧
      ∀ a, os'.any (a == ·.l) = if a == l then hasPair c l r else os.any (a == ·.l) := by
  have noR : (∀ y ∈ rs, (r == y.r) = false) → findR c r = none := ha.findR_none
  have someR : ∀ y rs', rs.Perm (y :: rs') → (r == y.r) = true → findR c r = some y.r := fun y rs' hp hr =>
    (ha.perm (.refl _) hp).findR_some hr ((h.half.wf.perm (.refl _) hp).othersR hr)
  rcases h.half.wf.casesL l with hnl | ⟨x, ls₀, hpl, hl, hnl⟩
  · by_cases hos : ∃ x ∈ os, (l == x.l) = true
    · -- an unknown one
      obtain ⟨x, hx, hl⟩ := hos
      obtain ⟨os₀, hpo⟩ := perm_cons_of_mem hx
      have hh := h.half.perm (.refl _) (hpo.append_right ks) (.refl _)
      rw [List.cons_append] at hh
      have hn := hh.absent hl
      have hn1 : ∀ a ∈ ls ++ os₀, (l == a.l) = false := fun a ha => hn a (List.mem_append.2 ((List.mem_append.1 ha).imp_right (List.mem_append_left _)))
      have hno : ∀ a ∈ os₀, (l == a.l) = false := fun a ha => hn1 a (List.mem_append_right _ ha)
      have ha' := ha.perm ((hpo.append_left ls).trans List.perm_middle) (.refl _)
      have hany : os.any (l == ·.l) = true := List.any_eq_true.2 ⟨x, hx, hl⟩
      have hfl : ((findL c l).map (·.1)).getD l = x.l := by rw [ha'.findL_some hl hn1]; rfl
      have hel := (ha'.eraseL_some hl hn1).pairs
      obtain ⟨y, hy, ey⟩ := List.mem_map.1 (h.owned x hx)
      obtain ⟨ey1, ey2⟩ := Prod.mk.inj ey
      obtain ⟨rs₀, hpr⟩ := perm_cons_of_mem hy
      have hhp := ha'.hasPair_some (r := r) hl hn1
      cases hry : r == y.r with
      | true =>
        obtain ⟨m', s, e, h', hc⟩ := half_stay (hh.perm (.refl _) (.refl _) hpr) hl hry ey1 ey2
        have hcr : c.rights.any (r == ·) = true := by rw [anyR_iff ha]; exact List.any_eq_true.2 ⟨y, hy, hry⟩
        have := h.finish ha (x := x) (r := r) (l := l) (os' := x :: os₀) (ls' := ls) (A := ls ++ os₀) h' (fun a ha => h.owned a (hpo.mem_iff.2 ha))
          (.inr ⟨by rw [someR y rs₀ hpr hry, ey2], (sig_perm hpr :), hc⟩) hel hfl List.perm_middle
        refine .inr ⟨m', ls, x :: os₀, _, e, this.1, this.2, fun _ => hcr, fun a => ?_⟩
        rw [hhp, ← ey2, hry, any_put hl a, any_eq_of_perm hpo, any_put hl a]
        cases a == l <;> rfl
      | false =>
        have hhp : hasPair c l r = false := by rw [hhp, ← ey2, hry]
        rcases h.half.wf.casesR r with hnr | ⟨z, rs₁, hpz, hrz, -⟩
        · refine .inl ⟨half_panic_none hh hl hnr, .inr ⟨hany, ?_⟩⟩
          rw [anyR_iff ha, List.any_eq_false]
          intro b hb; rw [hnr b hb]; simp
        · have hz : z ∈ rs := hpz.mem_iff.2 List.mem_cons_self
          have hcr : c.rights.any (r == ·) = true := by rw [anyR_iff ha]; exact List.any_eq_true.2 ⟨z, hz, hrz⟩
          rcases List.mem_cons.1 (hpr.mem_iff.1 hz) with rfl | hz
          · rw [hrz] at hry; cases hry
          obtain ⟨rs₂, hp2⟩ := perm_cons_of_mem hz
          have hpp : rs.Perm (z :: y :: rs₂) := hpr.trans ((hp2.cons y).trans (.swap _ _ _))
          obtain ⟨m', s, s', e, h', hc⟩ := half_mend (hh.perm (.refl _) (.refl _) hpp) hl hrz ey1 ey2
          have := h.finish ha (x := ⟨x.l, x.id, z.r, z.id, z.id⟩) (r := r) (l := l) (os' := os₀) (A := ls ++ os₀) h'
            (fun a ha => h.owned a (hpo.mem_iff.2 (List.mem_cons_of_mem _ ha))) (.inr ⟨someR z _ hpp hrz, (sig_perm hpp :), hc⟩) hel hfl (.refl _)
          refine .inr ⟨m', _, os₀, _, e, this.1, this.2, fun _ => hcr, fun a => ?_⟩
          rw [hhp, any_eq_of_perm hpo]; exact any_drop hl hno a
    · have hos : ∀ a ∈ os, (l == a.l) = false := fun a ha => eq_false_of_ne_true' fun hc => hos ⟨a, ha, hc⟩
      have hnA : ∀ a ∈ ls ++ os, (l == a.l) = false := fun a ha => (List.mem_append.1 ha).elim (hnl a) (hos a)
      have hnos : ¬ os.any (l == ·.l) = true := by
        rw [Bool.not_eq_true, List.any_eq_false]
        intro a ha; rw [hos a ha]; simp
      by_cases hks : ∃ x ∈ ks, (l == x.l) = true
      · -- a lost one
        obtain ⟨x, hx, hl⟩ := hks
        obtain ⟨ks₀, hpk⟩ := perm_cons_of_mem hx
        have hh := h.half.perm (.refl _) ((hpk.append_left os).trans List.perm_middle) (.refl _)
        refine .inl ⟨?_, .inl (List.any_eq_true.2 ⟨x, hx, hl⟩)⟩
        rcases h.half.wf.casesR r with hnr | ⟨z, rs₁, hpz, hrz, -⟩
        · exact half_panic_none hh hl hnr
        · refine half_panic_gone (hh.perm (.refl _) (.refl _) hpz) hl hrz fun a ha => ?_
          exact (h.gone x hx).2 (a.id, a.r) (List.mem_map_of_mem (f := fun y : RRec R => (y.id, y.r)) (hpz.mem_iff.2 ha))
      · -- a new one
        have hnT : ∀ a ∈ ls ++ (os ++ ks), (l == a.l) = false := fun a ha => by
          rcases List.mem_append.1 ha with ha | ha
          · exact hnl a ha
          · exact (List.mem_append.1 ha).elim (hos a) fun ha => eq_false_of_ne_true' fun hc => hks ⟨a, ha, hc⟩
        have hfl : ((findL c l).map (·.1)).getD l = l := by rw [ha.findL_none hnA]; rfl
        have hel : (eraseL c l).pairs.Perm ((ls ++ os).map fun x => (x.l, x.r)) := by rw [ha.eraseL_none hnA]; exact ha.pairs
        rcases h.half.wf.casesR r with hnr | ⟨z, rs₁, hpz, hrz, -⟩
        · obtain ⟨m', s, e, h', hc⟩ := half_none_none h.half hnT hnr
          have := h.finish ha (x := ⟨l, m.leftCounter, r, m.rightCounter, m.rightCounter⟩) (r := r) (l := l) (os' := os) (A := ls ++ os) h' h.owned
            (.inl ⟨noR hnr, rfl, .refl _, hc⟩) hel hfl (.refl _)
          refine .inr ⟨m', _, os, _, e, this.1, this.2, fun h => absurd h hnos, fun a => ?_⟩
          rw [ha.hasPair_none hnA]; exact any_keep hos a
        · obtain ⟨m', s, e, h', hc⟩ := half_none_some (h.half.perm (.refl _) (.refl _) hpz) hnT hrz
          have := h.finish ha (x := ⟨l, m.leftCounter, z.r, z.id, z.id⟩) (r := r) (l := l) (os' := os) (A := ls ++ os) h' h.owned
            (.inr ⟨someR z _ hpz hrz, (sig_perm hpz :), hc⟩) hel hfl (.refl _)
          refine .inr ⟨m', _, os, _, e, this.1, this.2, fun h => absurd h hnos, fun a => ?_⟩
          rw [ha.hasPair_none hnA]; exact any_keep hos a
  · -- one in order
    have hh := h.half.perm hpl (.refl _) (.refl _)
    have hn : ∀ a ∈ ls₀ ++ (os ++ ks), (l == a.l) = false := fun a ha => beq_false_of_left hl (hh.apartL a ha).2
    have hn1 : ∀ a ∈ ls₀ ++ os, (l == a.l) = false := fun a ha => hn a (List.mem_append.2 ((List.mem_append.1 ha).imp_right (List.mem_append_left _)))
    have hno : ∀ a ∈ os, (l == a.l) = false := fun a ha => hn1 a (List.mem_append_right _ ha)
    have hnos : ¬ os.any (l == ·.l) = true := by
      rw [Bool.not_eq_true, List.any_eq_false]
      intro a ha; rw [hno a ha]; simp
    have ha' : Abs (x :: (ls₀ ++ os)) rs c := ha.perm (hpl.append_right os) (.refl _)
    have hfl : ((findL c l).map (·.1)).getD l = x.l := by rw [ha'.findL_some hl hn1]; rfl
    have hel := (ha'.eraseL_some hl hn1).pairs
    obtain ⟨y, rs₀, hpr, ey1, ey2, -⟩ := hh.wf.ownerOf List.mem_cons_self
    have hhp := ha'.hasPair_some (r := r) hl hn1
    cases hry : r == y.r with
    | true =>
      obtain ⟨m', s, e, h', hc⟩ := half_same (hh.perm (.refl _) (.refl _) hpr) hl hry ey1 ey2
      have hy : (x.own, x.r) ∈ sig rs := by
        rw [← ey1, ← ey2]; exact List.mem_map_of_mem (f := fun y : RRec R => (y.id, y.r)) (hpr.mem_iff.2 List.mem_cons_self)
      have := h.finish ha (x := x) (r := r) (l := l) (os' := x :: os) (ls' := ls₀) (A := ls₀ ++ os) h'
        (fun a ha => by
          rcases List.mem_cons.1 ha with rfl | ha
          · exact hy
          · exact h.owned a ha)
        (.inr ⟨by rw [someR y rs₀ hpr hry, ey2], (sig_perm hpr :), hc⟩) hel hfl List.perm_middle
      refine .inr ⟨m', ls₀, x :: os, _, e, this.1, this.2, fun h => absurd h hnos, fun a => ?_⟩
      rw [hhp, ← ey2, hry, any_put hl a]
    | false =>
      have hhp : hasPair c l r = false := by rw [hhp, ← ey2, hry]
      rcases h.half.wf.casesR r with hnr | ⟨z, rs₁, hpz, hrz, -⟩
      · obtain ⟨m', s, s', e, h', hc⟩ := half_some_none (hh.perm (.refl _) (.refl _) hpr) hl ey1 ey2 fun a ha => hnr a (hpr.mem_iff.2 ha)
        have := h.finish ha (x := ⟨x.l, x.id, r, m.rightCounter, m.rightCounter⟩) (r := r) (l := l) (os' := os) (A := ls₀ ++ os) h' h.owned
          (.inl ⟨noR hnr, rfl, ((sig_perm hpr :)).cons _, hc⟩) hel hfl (.refl _)
        refine .inr ⟨m', _, os, _, e, this.1, this.2, fun h => absurd h hnos, fun a => ?_⟩
        rw [hhp]; exact any_keep hno a
      · have hz : z ∈ rs := hpz.mem_iff.2 List.mem_cons_self
        rcases List.mem_cons.1 (hpr.mem_iff.1 hz) with rfl | hz
        · rw [hrz] at hry; cases hry
        obtain ⟨rs₂, hp2⟩ := perm_cons_of_mem hz
        have hpp : rs.Perm (z :: y :: rs₂) := hpr.trans ((hp2.cons y).trans (.swap _ _ _))
        obtain ⟨m', s, s', e, h', hc⟩ := half_some_some (hh.perm (.refl _) (.refl _) hpp) hl hrz ey1 ey2
        have := h.finish ha (x := ⟨x.l, x.id, z.r, z.id, z.id⟩) (r := r) (l := l) (os' := os) (A := ls₀ ++ os) h' h.owned
          (.inr ⟨someR z _ hpp hrz, (sig_perm hpp :), hc⟩) hel hfl (.refl _)
        refine .inr ⟨m', _, os, _, e, this.1, this.2, fun h => absurd h hnos, fun a => ?_⟩
        rw [hhp]; exact any_keep hno a

/-- the records with the pairs that the left items know -/
theorem Mid.full (h : Mid m ls os ks rs) : WF m.hb m.leftCounter m.rightCounter (ls ++ os) (rs.map fun y => ⟨y.r, y.id, ⟨(mine (ls ++ os) y.id).map (key m.hb), 0⟩⟩) := by
  refine h.half.wf.refill ?_ ?_ ?_
  · have := h.half.apart
    rw [← List.append_assoc] at this
    exact (List.pairwise_append.1 this).1
  · exact fun a ha => (List.mem_append.1 ha).elim (h.half.wf.boundL a) fun ha => h.half.bound a (List.mem_append_left _ ha)
  · intro a ha
    rcases List.mem_append.1 ha with ha | ha
    · exact h.half.wf.owner a ha
    · obtain ⟨y, hy, e⟩ := List.mem_map.1 (h.owned a ha)
      exact ⟨y, hy, Prod.mk.inj e⟩

theorem Abs.refill {f : RRec R → PairSet} (ha : Abs ls rs c) : Abs ls (rs.map fun y => ⟨y.r, y.id, f y⟩) c :=
  ⟨ha.rights.trans (by rw [List.map_map]; exact .refl _), ha.pairs⟩

theorem Abs.unfill {f : RRec R → PairSet} (ha : Abs ls (rs.map fun y => ⟨y.r, y.id, f y⟩) c) : Abs ls rs c :=
  ⟨ha.rights.trans (by rw [List.map_map]; exact .refl _), ha.pairs⟩

theorem Mid.hasPair (h : Mid m ls os ks rs) (ha : Abs (ls ++ os) rs c) (hx : x ∈ ls ++ os) : hasPair c x.l r = (r == x.r) := by
  obtain ⟨A, hp⟩ := perm_cons_of_mem hx
  have hw := h.full.perm hp (.refl _)
  exact (ha.perm hp (.refl _)).hasPair_some BEq.rfl (hw.others BEq.rfl)

/-- what `insert_right` does, in the end -/
theorem insertRight_mid (h : Mid m ls os ks rs) (ha : Abs (ls ++ os) rs c) (r : R) :
    ∃ o m' ls' os' ks' rs', m.insertRight r = .ok (o, m') ∧ Mid m' ls' os' ks' rs' ∧ (ks ≠ [] → ks' ≠ []) ∧
      ((∃ x ∈ os, GroupSpec.hasPair c x.l r = true) → ks' ≠ []) ∧
      ((∀ x ∈ os, GroupSpec.hasPair c x.l r = false) → ks' = ks ∧ os' = os ∧ Abs (ls' ++ os') rs' (GroupSpec.insertRight c r).2) := by
  have hpair : ∀ x ∈ os, GroupSpec.hasPair c x.l r = (r == x.r) := fun x hx => h.hasPair ha (List.mem_append_right _ hx)
  rcases h.half.wf.casesR r with hnr | ⟨y, rs₀, hpr, hr, hn⟩
  · obtain ⟨o, m', s, e, h', hc⟩ := half_insertRight_none h.half hnr
    have hnr' : ∀ y ∈ rs.map fun y => (⟨y.r, y.id, ⟨(mine (ls ++ os) y.id).map (key m.hb), 0⟩⟩ : RRec R), (r == y.r) = false := fun y hy => by
      obtain ⟨a, ha, rfl⟩ := List.mem_map.1 hy
      exact hnr a ha
    refine ⟨o, m', ls, os, ks, _, e, ⟨h', fun a ha => List.mem_cons_of_mem _ (h.owned a ha), fun a hk => ⟨by have := (h.gone a hk).1; omega, fun p hp => ?_⟩⟩, id, ?_, fun _ => ⟨rfl, rfl, ?_⟩⟩
    · rcases List.mem_cons.1 hp with rfl | hp
      · have := (h.gone a hk).1; simp; omega
      · exact (h.gone a hk).2 p hp
    · rintro ⟨x, hx, hc⟩
      rw [hpair x hx] at hc
      obtain ⟨y, hy, e⟩ := List.mem_map.1 (h.owned x hx)
      rw [← (Prod.mk.inj e).2, hnr y hy] at hc; cases hc
    · rw [GroupSpec.insertRight, ha.refill.eraseR_none h.full hnr']
      exact ⟨ha.rights.cons _, ha.pairs⟩
  · obtain ⟨o, m', s, e, h', hc⟩ := half_insertRight_some (h.half.perm (.refl _) (.refl _) hpr) hr
    have hy : y ∈ rs := hpr.mem_iff.2 List.mem_cons_self
    have hown : ∀ x ∈ os, (x.own == y.id) = (r == x.r) := fun x hx =>
      h.full.own_iff (y := ⟨y.r, y.id, ⟨(mine (ls ++ os) y.id).map (key m.hb), 0⟩⟩) (List.mem_map_of_mem (f := fun y : RRec R => (⟨y.r, y.id, ⟨(mine (ls ++ os) y.id).map (key m.hb), 0⟩⟩ : RRec R)) hy) hr
        (List.mem_append_right _ hx)
    have hsig : ∀ p, p ∈ sig rs → p = (y.id, y.r) ∨ p ∈ sig rs₀ := fun p hp => List.mem_cons.1 ((sig_perm hpr).mem_iff.2 hp)
    have hids : ∀ p ∈ sig rs₀, p.1 ≠ y.id := fun p hp => by
      obtain ⟨a, ha, rfl⟩ := List.mem_map.1 hp
      exact (h.half.wf.perm (.refl _) hpr).ridsApart a ha
    have hlt : ∀ p ∈ sig rs, p.1 < m.rightCounter := fun p hp => by
      obtain ⟨a, ha, rfl⟩ := List.mem_map.1 hp
      exact h.half.wf.boundR a ha
    have hpt : (os ++ ks).Perm ((os.filter fun x => !(x.own == y.id)) ++ ((os.filter fun x => x.own == y.id) ++ ks)) := by
      rw [← List.append_assoc]
      exact ((List.filter_append_perm (fun x : LRec L R => x.own == y.id) os).symm.trans List.perm_append_comm).append_right _
    refine ⟨o, m', _, os.filter fun x => !(x.own == y.id), (os.filter fun x => x.own == y.id) ++ ks, _, e, ⟨h'.perm (.refl _) hpt (.refl _), fun a ha => ?_, fun a hk => ?_⟩,
      fun hk => by simp [hk], ?_, fun hno => ?_⟩
    · obtain ⟨ha, hne⟩ := List.mem_filter.1 ha
      rcases hsig _ (h.owned a ha) with e | hm
      · simp [(Prod.mk.inj e).1] at hne
      · exact List.mem_cons_of_mem _ hm
    · rcases List.mem_append.1 hk with hk | hk
      · obtain ⟨ha, he⟩ := List.mem_filter.1 hk
        have he : a.own = y.id := by simpa using he
        have hb := hlt _ (h.owned a ha)
        simp only at hb
        refine ⟨by omega, fun p hp => ?_⟩
        rcases List.mem_cons.1 hp with rfl | hp
        · simp; omega
        · rw [he]; exact hids p hp
      · have hb := (h.gone a hk).1
        refine ⟨by omega, fun p hp => ?_⟩
        rcases List.mem_cons.1 hp with rfl | hp
        · simp; omega
        · exact (h.gone a hk).2 p ((sig_perm hpr).mem_iff.1 (List.mem_cons_of_mem _ hp))
    · rintro ⟨x, hx, hc⟩ h0
      rw [hpair x hx, ← hown x hx] at hc
      have := (List.append_eq_nil_iff.1 h0).1
      exact absurd hc (List.filter_eq_nil_iff.1 this x hx)
    · have h1 : (os.filter fun x => x.own == y.id) = [] := List.filter_eq_nil_iff.2 fun x hx => by rw [hown x hx, ← hpair x hx, hno x hx]; simp
      have h2 : (os.filter fun x => !(x.own == y.id)) = os := List.filter_eq_self.2 fun x hx => by rw [hown x hx, ← hpair x hx, hno x hx]; rfl
      refine ⟨by rw [h1]; rfl, h2, ?_⟩
      have hpr' := hpr.map fun y : RRec R => (⟨y.r, y.id, ⟨(mine (ls ++ os) y.id).map (key m.hb), 0⟩⟩ : RRec R)
      have hA := (ha.refill.perm (.refl _) hpr').eraseR_some (h.full.perm (.refl _) hpr') hr fun a ha => by
        obtain ⟨b, hb, rfl⟩ := List.mem_map.1 ha
        exact hn b hb
      rw [List.filter_append] at hA
      have hA := hA.unfill
      exact ⟨hA.rights.cons _, hA.pairs⟩

/-! ### At the end -/

theorem Mid.lost (h : Mid m ls os ks rs) (hk : ks ≠ []) : ¬ Shows m c := by
  intro hs
  obtain ⟨x, hx⟩ := List.exists_mem_of_ne_nil _ hk
  obtain ⟨ks₀, hpk⟩ := perm_cons_of_mem hx
  have hh := h.half.perm (.refl _) ((hpk.append_left os).trans List.perm_middle) (.refl _)
  have hg : m.left.get (m.hb.hl x.l) (equivalentKeyLeft x.l) = some (toL m.hb x).2 := getL_eq (hb := m.hb) hh.consT BEq.rfl (hh.absent BEq.rfl)
  have h1 : m.containsLeft x.l = true := by rw [containsLeft, hg]; rfl
  have h2 : m.getRight x.l = none := by
    have hg' : m.left.get (m.hb.hl x.l) (fun y => y.value == x.l) = some (toL m.hb x).2 := hg
    simp only [getRight, getRightBy, hg', toL]
    rw [h.half.fresh x (by simp [hx]), RawTable.get_none]
    · rfl
    · intro e he
      obtain ⟨y, hy, rfl⟩ := List.mem_map.1 (h.half.right.mem_iff.1 he)
      have := (h.gone x hx).2 (y.id, y.r) (List.mem_map_of_mem (f := fun y : RRec R => (y.id, y.r)) hy)
      simpa [rightWithRightId, toR] using this
  rw [hs.containsLeft] at h1
  rw [hs.getRight, Option.map_eq_none_iff, findL, List.find?_eq_none] at h2
  obtain ⟨p, hp, e⟩ := List.any_eq_true.1 h1
  exact h2 p hp e

theorem Mid.torn (h : Mid m ls os [] rs) : Torn m ls os [] rs where
  left := by have := h.half.left; rwa [List.append_nil] at this
  right := h.half.right
  wf := by rw [List.append_nil]; exact h.half.wf
  apart := by have := h.half.apart; rwa [List.append_nil] at this ⊢
  boundL := h.full.boundL
  fresh := by have := h.half.fresh; rwa [List.append_nil] at this
  owner := fun a ha => by
    rcases List.mem_append.1 ha with ha | ha
    · exact h.half.wf.owner a ha
    · obtain ⟨y, hy, e⟩ := List.mem_map.1 (h.owned a ha)
      exact ⟨y, hy, Prod.mk.inj e⟩

theorem Mid.unknown (h : Mid m ls os [] rs) (ha : Abs (ls ++ os) rs c) (ho : os ≠ []) : ¬ Shows m c := by
  intro hs
  obtain ⟨x, hx⟩ := List.exists_mem_of_ne_nil _ ho
  have ht := h.torn.shows (rights := c.rights) (A := c.pairs) (B := ls.map fun x => (x.l, x.r)) ha.rights ha.pairs (by rw [List.append_nil])
  have h1 := ht.arePaired x.l x.r
  rw [hs.arePaired, h.hasPair ha (List.mem_append_right _ hx), BEq.rfl] at h1
  have := (Bool.and_eq_true_iff.1 h1.symm).2
  obtain ⟨p, hp, e⟩ := List.any_eq_true.1 this
  obtain ⟨a, hm, rfl⟩ := List.mem_map.1 hp
  have := ((List.pairwise_append.1 h.full.apartL).2.2 a hm x hx).2
  rw [BEq.comm, (Bool.and_eq_true_iff.1 e).1] at this; cases this

theorem Mid.whole (h : Mid m ls [] [] rs) (ha : Abs (ls ++ []) rs c) : Repr m c := by
  have h1 := h.half.left
  have h2 := h.half.fresh
  simp only [List.append_nil] at h1 h2 ha
  exact ⟨ls, rs, ⟨h1, h.half.right, h.half.wf⟩, fun _ => h2, ha⟩

theorem Mid.extend_lost (h : Mid m ls os ks rs) (hk : ks ≠ []) (xs : List (Option L × R)) {m' : GroupMap L R} (e : m.extendOpt xs = .ok m') : ¬ Shows m' c := by
  induction xs generalizing m ls os ks rs with
  | nil => cases e; exact h.lost hk
  | cons p xs ih =>
    have ha : Abs (ls ++ os) rs ⟨rs.map (·.r), (ls ++ os).map fun x => (x.l, x.r)⟩ := ⟨.refl _, .refl _⟩
    obtain ⟨o, r⟩ := p
    cases o with
    | none =>
      obtain ⟨o, m₁, ls', os', ks', rs', e1, h', hk', -⟩ := insertRight_mid h ha r
      simp only [extendOpt, e1, bind, Except.bind] at e
      exact ih h' (hk' hk) e
    | some l =>
      rcases insert_mid h ha l r with ⟨e1, -⟩ | ⟨m₁, ls', os', rs', e1, h', -⟩
      · simp only [extendOpt, e1, bind, Except.bind] at e; cases e
      · simp only [extendOpt, e1, bind, Except.bind] at e
        exact ih h' hk e

/-- Every left item that loses touch with its right item, by `insert` of a pair that is there, is found again: it moves to another right item that is there, before its own is
replaced.  `T`: the left items out of touch. -/
def Mends (c : Contents L R) (T : List L) : List (Option L × R) → Prop
  | [] => T = []
  | (some l, r) :: xs => (T.any (l == ·) = true → c.rights.any (r == ·) = true) ∧
      Mends (GroupSpec.insert c l r) (if GroupSpec.hasPair c l r then l :: T else T.filter fun t => !(l == t)) xs
  | (none, r) :: xs => (∀ t ∈ T, GroupSpec.hasPair c t r = false) ∧ Mends (GroupSpec.insertRight c r).2 T xs

theorem out_of_touch {T : List L} (hT : ∀ a, T.any (a == ·) = os.any (a == ·.l)) {b : Bool} {os' : List (LRec L R)}
    (ho : ∀ a, os'.any (a == ·.l) = if a == l then b else os.any (a == ·.l)) (a : L) :
    (if b then l :: T else T.filter fun t => !(l == t)).any (a == ·) = os'.any (a == ·.l) := by
  rw [ho a, ← hT a]
  cases b with
  | true => cases hal : a == l <;> simp [hal]
  | false =>
    simp only [Bool.false_eq_true, if_false, List.any_filter]
    split
    · next hal =>
      rw [List.any_eq_false]
      intro t _
      rw [BEq.congr_left hal]; simp
    · next hal =>
      refine Bool.eq_iff_iff.2 ⟨fun h => ?_, fun h => ?_⟩
      · obtain ⟨t, ht, e⟩ := List.any_eq_true.1 h
        exact List.any_eq_true.2 ⟨t, ht, (Bool.and_eq_true_iff.1 e).2⟩
      · obtain ⟨t, ht, e⟩ := List.any_eq_true.1 h
        refine List.any_eq_true.2 ⟨t, ht, ?_⟩
        rw [e, BEq.comm, ← BEq.congr_left e, eq_false_of_ne_true' hal]; rfl

theorem hasPair_congr {a b : L} (h : (a == b) = true) : GroupSpec.hasPair c a r = GroupSpec.hasPair c b r := by
  simp only [GroupSpec.hasPair, BEq.congr_left h]

theorem touch_iff {T : List L} (hT : ∀ a, T.any (a == ·) = os.any (a == ·.l)) :
    (∀ t ∈ T, GroupSpec.hasPair c t r = false) ↔ ∀ x ∈ os, GroupSpec.hasPair c x.l r = false := by
  constructor
  · intro h x hx
    have : T.any (x.l == ·) = true := by rw [hT]; exact List.any_eq_true.2 ⟨x, hx, BEq.rfl⟩
    obtain ⟨t, ht, e⟩ := List.any_eq_true.1 this
    rw [hasPair_congr e]; exact h t ht
  · intro h t ht
    have : os.any (t == ·.l) = true := by rw [← hT]; exact List.any_eq_true.2 ⟨t, ht, BEq.rfl⟩
    obtain ⟨x, hx, e⟩ := List.any_eq_true.1 this
    rw [hasPair_congr e]; exact h x hx

/-- where the left items are found again, `extend` does what is documented -/
theorem Mid.extend_mends (h : Mid m ls os [] rs) (ha : Abs (ls ++ os) rs c) {T : List L} (hT : ∀ a, T.any (a == ·) = os.any (a == ·.l))
    (xs : List (Option L × R)) (hm : Mends c T xs) : ∃ m', m.extendOpt xs = .ok m' ∧ Repr m' (insertAll c xs) := by
  induction xs generalizing m ls os rs c T with
  | nil =>
    obtain rfl : T = [] := hm
    cases os with
    | nil => exact ⟨m, rfl, h.whole ha⟩
    | cons x os => have := hT x.l; simp at this
  | cons p xs ih =>
    obtain ⟨o, r⟩ := p
    cases o with
    | none =>
      obtain ⟨hno, hm⟩ := hm
      obtain ⟨o, m₁, ls', os', ks', rs', e1, h', -, -, h3⟩ := insertRight_mid h ha r
      obtain ⟨rfl, rfl, ha'⟩ := h3 ((touch_iff hT).1 hno)
      obtain ⟨m', e, hr⟩ := ih h' ha' hT hm
      exact ⟨m', by simp only [extendOpt, e1, bind, Except.bind]; exact e, hr⟩
    | some l =>
      obtain ⟨hin, hm⟩ := hm
      rcases insert_mid h ha l r with ⟨-, hc⟩ | ⟨m₁, ls', os', rs', e1, h', ha', -, ho⟩
      · rcases hc with hc | ⟨hc, hc'⟩
        · cases hc
        · rw [hin ((hT l).trans hc)] at hc'; cases hc'
      · obtain ⟨m', e, hr⟩ := ih h' ha' (out_of_touch hT ho) hm
        exact ⟨m', by simp only [extendOpt, e1, bind, Except.bind]; exact e, hr⟩

/-- and nowhere else -/
theorem Mid.extend_only (h : Mid m ls os [] rs) (ha : Abs (ls ++ os) rs c) {T : List L} (hT : ∀ a, T.any (a == ·) = os.any (a == ·.l))
    (xs : List (Option L × R)) {m' : GroupMap L R} (e : m.extendOpt xs = .ok m') (hs : Shows m' (insertAll c xs)) : Mends c T xs := by
  induction xs generalizing m ls os rs c T with
  | nil =>
    cases e
    have : os = [] := Classical.byContradiction fun ho => h.unknown ha ho hs
    subst this
    cases T with
    | nil => rfl
    | cons t T => have := hT t; simp at this
  | cons p xs ih =>
    obtain ⟨o, r⟩ := p
    cases o with
    | none =>
      obtain ⟨o, m₁, ls', os', ks', rs', e1, h', -, h2, h3⟩ := insertRight_mid h ha r
      simp only [extendOpt, e1, bind, Except.bind] at e
      have hno : ∀ x ∈ os, GroupSpec.hasPair c x.l r = false := fun x hx => eq_false_of_ne_true' fun hc => h'.extend_lost (h2 ⟨x, hx, hc⟩) xs e hs
      obtain ⟨rfl, rfl, ha'⟩ := h3 hno
      exact ⟨(touch_iff hT).2 hno, ih h' ha' hT e hs⟩
    | some l =>
      rcases insert_mid h ha l r with ⟨e1, -⟩ | ⟨m₁, ls', os', rs', e1, h', ha', hin, ho⟩
      · simp only [extendOpt, e1, bind, Except.bind] at e; cases e
      · simp only [extendOpt, e1, bind, Except.bind] at e
        exact ⟨fun h => hin ((hT l).symm.trans h), ih h' ha' (out_of_touch hT ho) e hs⟩

theorem Repr.mid (h : Repr m c) : ∃ ls rs, Mid m ls [] [] rs ∧ Abs (ls ++ []) rs c := by
  obtain ⟨ls, rs, h, hf, ha⟩ := h
  refine ⟨ls, rs, ⟨⟨by simpa using h.left, h.right, h.wf, by simpa using h.wf.apartL, by simp, fun a ha => hf trivial a (by simpa using ha)⟩, by simp, by simp⟩, by simpa using ha⟩

/-- when `extend` with optional left items does what is documented -/
theorem extendOpt_right (h : Repr m c) (xs : List (Option L × R)) :
    (Mends c [] xs → ∃ m', m.extendOpt xs = .ok m' ∧ Repr m' (insertAll c xs)) ∧
    ∀ m', m.extendOpt xs = .ok m' → Shows m' (insertAll c xs) → Mends c [] xs := by
  obtain ⟨ls, rs, hm, ha⟩ := h.mid
  exact ⟨hm.extend_mends ha (fun _ => rfl) xs, fun m' e hs => hm.extend_only ha (fun _ => rfl) xs e hs⟩

omit [LawfulRaw] [EquivBEq L] [EquivBEq R] in
theorem extend_eq (xs : List (L × R)) : m.extend xs = m.extendOpt (xs.map fun p => (some p.1, p.2)) := by
  induction xs generalizing m with
  | nil => rfl
  | cons p xs ih => simp only [extend, List.map_cons, extendOpt, ih]

/-- a sequence of new pairs leaves nothing out of touch -/
theorem NewPairs.mends (xs : List (Option L × R)) (h : NewPairs c xs) : Mends c [] xs := by
  induction xs generalizing c with
  | nil => rfl
  | cons p xs ih =>
    obtain ⟨o, r⟩ := p
    cases o with
    | none => exact ⟨by simp, ih h⟩
    | some l => exact ⟨by simp, by rw [h.1]; exact ih h.2⟩

end Verif.GroupMap
