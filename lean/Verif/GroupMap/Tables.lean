import Verif.GroupMap.Rep
/-! Probes into the tables of a list of records, and the contents the records stand for. -/
set_option linter.unusedSectionVars false
namespace Verif.GroupMap
open GroupSpec

variable [RawImpl] [LawfulRaw] {L R : Type} [BEq L] [BEq R] [EquivBEq L] [EquivBEq R]
variable {hb : BuildHasher L R} {ls : List (LRec L R)} {rs : List (RRec R)} {x : LRec L R} {y : RRec R}

section
variable {t : RawTable (LeftItem L)} {l : L}

theorem getL_eq (ht : t.entries.Perm (toL hb x :: ls.map (toL hb))) (hl : (l == x.l) = true)
    (hn : ∀ a ∈ ls, (l == a.l) = false) : t.get (hb.hl l) (equivalentKeyLeft l) = some (toL hb x).2 :=
  RawTable.get_some ht (hb.hl_congr _ _ (BEq.symm hl)) (BEq.symm hl) (keysL hn)

theorem getMutL_eq (ht : t.entries.Perm (toL hb x :: ls.map (toL hb))) (hl : (l == x.l) = true)
    (hn : ∀ a ∈ ls, (l == a.l) = false) :
    ∃ w, t.getMut (hb.hl l) (equivalentKeyLeft l) = some ((toL hb x).2, w) ∧
      ∀ v, (w v).entries.Perm ((hb.hl x.l, v) :: ls.map (toL hb)) :=
  RawTable.getMut_some ht (hb.hl_congr _ _ (BEq.symm hl)) (BEq.symm hl) (keysL hn)

theorem removeL_eq (ht : t.entries.Perm (toL hb x :: ls.map (toL hb))) (hl : (l == x.l) = true)
    (hn : ∀ a ∈ ls, (l == a.l) = false) :
    ∃ t', t.removeEntry (hb.hl l) (equivalentKeyLeft l) = some ((toL hb x).2, t') ∧
      t'.entries.Perm (ls.map (toL hb)) :=
  RawTable.removeEntry_some ht (hb.hl_congr _ _ (BEq.symm hl)) (BEq.symm hl) (keysL hn)

omit [EquivBEq L] [EquivBEq R] in
theorem getL_id (ht : t.entries.Perm (toL hb x :: ls.map (toL hb))) (hn : ∀ a ∈ ls, a.id ≠ x.id) :
    t.get (hb.hl x.l) (leftWithLeftId x.id) = some (toL hb x).2 :=
  RawTable.get_some ht rfl (by simp [leftWithLeftId, toL]) (idsL hn)

omit [EquivBEq L] [EquivBEq R] in
theorem getMutL_id (ht : t.entries.Perm (toL hb x :: ls.map (toL hb))) (hn : ∀ a ∈ ls, a.id ≠ x.id) :
    ∃ w, t.getMut (hb.hl x.l) (leftWithLeftId x.id) = some ((toL hb x).2, w) ∧
      ∀ v, (w v).entries.Perm ((hb.hl x.l, v) :: ls.map (toL hb)) :=
  RawTable.getMut_some ht rfl (by simp [leftWithLeftId, toL]) (idsL hn)

omit [EquivBEq L] [EquivBEq R] in
theorem removeL_id (ht : t.entries.Perm (toL hb x :: ls.map (toL hb))) (hn : ∀ a ∈ ls, a.id ≠ x.id) :
    ∃ t', t.removeEntry (hb.hl x.l) (leftWithLeftId x.id) = some ((toL hb x).2, t') ∧
      t'.entries.Perm (ls.map (toL hb)) :=
  RawTable.removeEntry_some ht rfl (by simp [leftWithLeftId, toL]) (idsL hn)
end

section
variable {t : RawTable (RightItem R)} {r : R}

theorem getR_eq (ht : t.entries.Perm (toR hb y :: rs.map (toR hb))) (hr : (r == y.r) = true)
    (hn : ∀ a ∈ rs, (r == a.r) = false) : t.get (hb.hr r) (equivalentKeyRight r) = some (toR hb y).2 :=
  RawTable.get_some ht (hb.hr_congr _ _ (BEq.symm hr)) (BEq.symm hr) (keysR hn)

theorem getMutR_eq (ht : t.entries.Perm (toR hb y :: rs.map (toR hb))) (hr : (r == y.r) = true)
    (hn : ∀ a ∈ rs, (r == a.r) = false) :
    ∃ w, t.getMut (hb.hr r) (equivalentKeyRight r) = some ((toR hb y).2, w) ∧
      ∀ v, (w v).entries.Perm ((hb.hr y.r, v) :: rs.map (toR hb)) :=
  RawTable.getMut_some ht (hb.hr_congr _ _ (BEq.symm hr)) (BEq.symm hr) (keysR hn)

theorem removeR_eq (ht : t.entries.Perm (toR hb y :: rs.map (toR hb))) (hr : (r == y.r) = true)
    (hn : ∀ a ∈ rs, (r == a.r) = false) :
    ∃ t', t.removeEntry (hb.hr r) (equivalentKeyRight r) = some ((toR hb y).2, t') ∧
      t'.entries.Perm (rs.map (toR hb)) :=
  RawTable.removeEntry_some ht (hb.hr_congr _ _ (BEq.symm hr)) (BEq.symm hr) (keysR hn)

omit [EquivBEq L] [EquivBEq R] in
theorem getR_id (ht : t.entries.Perm (toR hb y :: rs.map (toR hb))) (hn : ∀ a ∈ rs, a.id ≠ y.id) :
    t.get (hb.hr y.r) (rightWithRightId y.id) = some (toR hb y).2 :=
  RawTable.get_some ht rfl (by simp [rightWithRightId, toR]) (idsR hn)

omit [EquivBEq L] [EquivBEq R] in
theorem getMutR_id (ht : t.entries.Perm (toR hb y :: rs.map (toR hb))) (hn : ∀ a ∈ rs, a.id ≠ y.id) :
    ∃ w, t.getMut (hb.hr y.r) (rightWithRightId y.id) = some ((toR hb y).2, w) ∧
      ∀ v, (w v).entries.Perm ((hb.hr y.r, v) :: rs.map (toR hb)) :=
  RawTable.getMut_some ht rfl (by simp [rightWithRightId, toR]) (idsR hn)

omit [EquivBEq L] [EquivBEq R] in
theorem removeR_id (ht : t.entries.Perm (toR hb y :: rs.map (toR hb))) (hn : ∀ a ∈ rs, a.id ≠ y.id) :
    ∃ t', t.removeEntry (hb.hr y.r) (rightWithRightId y.id) = some ((toR hb y).2, t') ∧
      t'.entries.Perm (rs.map (toR hb)) :=
  RawTable.removeEntry_some ht rfl (by simp [rightWithRightId, toR]) (idsR hn)

omit [EquivBEq L] [EquivBEq R] in
theorem getMutR_pair {p : UInt64 × Nat} (ht : t.entries.Perm (toR hb y :: rs.map (toR hb))) (hp : p ∈ y.pairs.entries)
    (hn : ∀ a ∈ rs, p ∉ a.pairs.entries) :
    ∃ w, t.getMut (hb.hr y.r) (rightWithLeftPair p) = some ((toR hb y).2, w) ∧
      ∀ v, (w v).entries.Perm ((hb.hr y.r, v) :: rs.map (toR hb)) :=
  RawTable.getMut_some ht rfl (PairSet.contains_iff.2 hp) (pairsR hn)
end

/-! ### Contents -/
section
variable {c : Contents L R} {ls' : List (LRec L R)} {rs' : List (RRec R)} {l : L} {r : R} {lc rc : Nat}

theorem Abs.perm (h : Abs ls rs c) (hl : ls.Perm ls') (hr : rs.Perm rs') : Abs ls' rs' c :=
  ⟨h.rights.trans (hr.map _), h.pairs.trans (hl.map _)⟩

theorem FreshIf.perm {G : Prop} (h : FreshIf G ls) (hl : ls.Perm ls') : FreshIf G ls' :=
  fun g x hx => h g x (hl.mem_iff.2 hx)

theorem Abs.allL (h : Abs ls rs c) {P : L × R → Bool} (hn : ∀ x ∈ ls, P (x.l, x.r) = false) :
    ∀ p ∈ c.pairs, P p = false := by
  intro p hp
  obtain ⟨x, hx, rfl⟩ := List.mem_map.1 (h.pairs.mem_iff.1 hp)
  exact hn x hx

theorem Abs.allR (h : Abs ls rs c) {P : R → Bool} (hn : ∀ x ∈ rs, P x.r = false) : ∀ p ∈ c.rights, P p = false := by
  intro p hp
  obtain ⟨x, hx, rfl⟩ := List.mem_map.1 (h.rights.mem_iff.1 hp)
  exact hn x hx

theorem Abs.findL_none (h : Abs ls rs c) (hn : ∀ x ∈ ls, (l == x.l) = false) : findL c l = none := by
  rw [findL, List.find?_eq_none]
  intro p hp
  rw [h.allL (P := fun p => l == p.1) hn p hp]; simp

theorem Abs.eraseL_none (h : Abs ls rs c) (hn : ∀ x ∈ ls, (l == x.l) = false) : eraseL c l = c := by
  rw [eraseL, filter_eq_self_of (P := fun p : L × R => l == p.1) (h.allL hn)]

theorem Abs.findL_some (h : Abs (x :: ls) rs c) (hl : (l == x.l) = true) (hn : ∀ a ∈ ls, (l == a.l) = false) :
    findL c l = some (x.l, x.r) := by
  refine find?_eq_some_of_perm (h.pairs.trans (by rw [List.map_cons])) hl ?_
  intro q hq
  obtain ⟨a, ha, rfl⟩ := List.mem_map.1 hq
  exact hn a ha

theorem Abs.eraseL_some (h : Abs (x :: ls) rs c) (hl : (l == x.l) = true) (hn : ∀ a ∈ ls, (l == a.l) = false) :
    Abs ls rs (eraseL c l) := by
  refine ⟨h.rights, ?_⟩
  refine filter_perm_tail (P := fun p : L × R => l == p.1) (h.pairs.trans (by rw [List.map_cons])) hl ?_
  intro q hq
  obtain ⟨a, ha, rfl⟩ := List.mem_map.1 hq
  exact hn a ha

theorem Abs.findR_none (h : Abs ls rs c) (hn : ∀ y ∈ rs, (r == y.r) = false) : findR c r = none := by
  rw [findR, List.find?_eq_none]
  intro p hp
  rw [h.allR (P := fun p => r == p) hn p hp]; simp

theorem Abs.findR_some (h : Abs ls (y :: rs) c) (hr : (r == y.r) = true) (hn : ∀ a ∈ rs, (r == a.r) = false) :
    findR c r = some y.r := by
  refine find?_eq_some_of_perm (h.rights.trans (by rw [List.map_cons])) hr ?_
  intro q hq
  obtain ⟨a, ha, rfl⟩ := List.mem_map.1 hq
  exact hn a ha

theorem Abs.noGroup (h : Abs ls rs c) (hw : WF hb lc rc ls rs) (hn : ∀ y ∈ rs, (r == y.r) = false) :
    ∀ p ∈ c.pairs, (r == p.2) = false := by
  refine h.allL (P := fun p => r == p.2) fun x hx => ?_
  obtain ⟨y, hy, -, e⟩ := hw.owner x hx
  rw [← e]; exact hn y hy

theorem Abs.eraseR_none (h : Abs ls rs c) (hw : WF hb lc rc ls rs) (hn : ∀ y ∈ rs, (r == y.r) = false) :
    eraseR c r = c := by
  rw [eraseR, filter_eq_self_of (P := fun p : L × R => r == p.2) (h.noGroup hw hn),
    filter_eq_self_of (P := fun p : R => r == p) (h.allR hn)]

theorem Abs.eraseR_some (h : Abs ls (y :: rs) c) (hw : WF hb lc rc ls (y :: rs)) (hr : (r == y.r) = true)
    (hn : ∀ a ∈ rs, (r == a.r) = false) : Abs (ls.filter fun x => !(x.own == y.id)) rs (eraseR c r) := by
  constructor
  · refine filter_perm_tail (P := fun p : R => r == p) (h.rights.trans (by rw [List.map_cons])) hr ?_
    intro q hq
    obtain ⟨a, ha, rfl⟩ := List.mem_map.1 hq
    exact hn a ha
  · refine (h.pairs.filter _).trans ?_
    rw [List.filter_map]
    refine .of_eq (congrArg _ (List.filter_congr fun x hx => ?_))
    simp only [Function.comp]
    rw [hw.own_iff List.mem_cons_self hr hx]

theorem Abs.group_some (h : Abs ls rs c) (hw : WF hb lc rc ls rs) (hy : y ∈ rs) (hr : (r == y.r) = true) :
    (group c r).Perm ((mine ls y.id).map (·.l)) := by
  rw [group]
  refine ((h.pairs.filter _).map _).trans ?_
  rw [List.filter_map, List.map_map, mine]
  refine .of_eq ?_
  rw [List.filter_congr (q := fun x => x.own == y.id) fun x hx => ?_]
  · rfl
  · simp only [Function.comp]
    rw [hw.own_iff hy hr hx]

theorem Abs.hasGroup_some (h : Abs ls rs c) (hw : WF hb lc rc ls rs) (hy : y ∈ rs) (hr : (r == y.r) = true) :
    hasGroup c r = !(y.pairs.isEmpty) := by
  have h1 := (hw.pairs y hy).length_eq
  rw [List.length_map] at h1
  have h2 := (h.group_some hw hy hr).length_eq
  rw [List.length_map, group, List.length_map] at h2
  rw [hasGroup, PairSet.isEmpty, Bool.eq_iff_iff, List.any_eq_true]
  constructor
  · rintro ⟨p, hp, e⟩
    cases he : y.pairs.entries with
    | nil =>
      rw [he] at h1
      have : (c.pairs.filter (r == ·.2)).length = 0 := by rw [h2, ← h1]; rfl
      rw [List.length_eq_zero_iff, List.filter_eq_nil_iff] at this
      exact absurd e (this p hp)
    | cons a as => rfl
  · intro e
    cases he : y.pairs.entries with
    | nil => rw [he] at e; cases e
    | cons a as =>
      rw [he] at h1
      have : 0 < (c.pairs.filter (r == ·.2)).length := by rw [h2, ← h1]; simp
      obtain ⟨p, hp⟩ := List.exists_mem_of_length_pos this
      exact ⟨p, (List.mem_filter.1 hp).1, (List.mem_filter.1 hp).2⟩

theorem Abs.sound (h : Abs ls rs c) (hw : WF hb lc rc ls rs) : c.Sound where
  lefts := by
    refine (h.pairs.pairwise_iff (fun h => by rw [BEq.comm]; exact h)).2 ?_
    rw [List.pairwise_map]
    exact hw.apartL.imp fun h => h.2
  rights := by
    refine (h.rights.pairwise_iff (fun h => by rw [BEq.comm]; exact h)).2 ?_
    rw [List.pairwise_map]
    exact hw.apartR.imp fun h => h.2
  owned := by
    intro p hp
    obtain ⟨x, hx, rfl⟩ := List.mem_map.1 (h.pairs.mem_iff.1 hp)
    obtain ⟨y, hy, -, e⟩ := hw.owner x hx
    exact h.rights.mem_iff.2 (List.mem_map.2 ⟨y, hy, e⟩)

theorem Abs.hasPair_some (h : Abs (x :: ls) rs c) (hl : (l == x.l) = true) (hn : ∀ a ∈ ls, (l == a.l) = false) :
    hasPair c l r = (r == x.r) := by
  rw [hasPair, any_eq_of_perm h.pairs, List.map_cons, List.any_cons, hl, Bool.true_and]
  rw [show (ls.map fun x => (x.l, x.r)).any (fun p => l == p.1 && r == p.2) = false from ?_, Bool.or_false]
  rw [List.any_eq_false]
  intro p hp
  obtain ⟨a, ha, rfl⟩ := List.mem_map.1 hp
  simp [hn a ha]

theorem Abs.hasPair_none (h : Abs ls rs c) (hn : ∀ a ∈ ls, (l == a.l) = false) : hasPair c l r = false := by
  rw [hasPair, List.any_eq_false]
  intro p hp
  have := h.allL (P := fun p => l == p.1) hn p hp
  simp [this]

theorem Abs.same {d : Contents L R} (h : Abs ls rs c) (hs : c.Same d) : Abs ls rs d :=
  ⟨hs.rights.symm.trans h.rights, hs.pairs.symm.trans h.pairs⟩
end

theorem ReprG.same {G : Prop} {m : GroupMap L R} {c d : Contents L R} (h : ReprG G m c) (hs : c.Same d) : ReprG G m d := by
  obtain ⟨ls, rs, h1, h2, h3⟩ := h
  exact ⟨ls, rs, h1, h2, h3.same hs⟩

theorem ReprG.sound {G : Prop} {m : GroupMap L R} {c : Contents L R} (h : ReprG G m c) : c.Sound := by
  obtain ⟨ls, rs, h1, h2, h3⟩ := h
  exact h3.sound h1.wf

theorem ReprG.stale {G : Prop} {m : GroupMap L R} {c : Contents L R} (h : ReprG G m c) : Stale m c := by
  obtain ⟨ls, rs, h1, h2, h3⟩ := h
  exact ⟨ls, rs, h1, False.elim, h3⟩

end Verif.GroupMap
