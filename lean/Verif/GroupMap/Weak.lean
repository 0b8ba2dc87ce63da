import Verif.GroupMap.Iterate
import Verif.PartialMap.Weak
import Verif.GroupMap.WeakSpec
/-! `GroupMap` with a `==` that is any relation the hash agrees with: left items and their right items stay linked. -/
set_option linter.unusedSectionVars false
set_option linter.unusedSimpArgs false
namespace Verif.GroupMap
open GroupWeak
open CycleMap (removeEntry_of_get_none)
open PartialMap (access_of_get getMut_of_get_none)

variable [RawImpl] [LawfulRaw] {L R : Type} [BEq L] [BEq R]

/-- the records `ls` and `rs` refer to each other, with distinct ids -/
structure Tied (hb : BuildHasher L R) (lc rc : Nat) (ls : List (LRec L R)) (rs : List (RRec R)) : Prop where
  idsL : ls.Pairwise (·.id ≠ ·.id)
  idsR : rs.Pairwise (·.id ≠ ·.id)
  boundL : ∀ x ∈ ls, x.id < lc
  boundR : ∀ y ∈ rs, y.id < rc
  owner : ∀ x ∈ ls, ∃ y ∈ rs, y.id = x.own ∧ y.r = x.r
  pairs : ∀ y ∈ rs, y.pairs.entries.Perm ((mine ls y.id).map (key hb))
  fresh : ∀ x ∈ ls, x.rid = x.own

/-- `m` holds exactly these records -/
structure Linked (m : GroupMap L R) (ls : List (LRec L R)) (rs : List (RRec R)) : Prop where
  left : m.left.entries.Perm (ls.map (toL m.hb))
  right : m.right.entries.Perm (rs.map (toR m.hb))
  tied : Tied m.hb m.leftCounter m.rightCounter ls rs

/-- the groups that the records stand for -/
def groups (ls : List (LRec L R)) (rs : List (RRec R)) : Groups L R :=
  ⟨rs.map fun y => (y.id, y.r), ls.map fun x => (x.l, x.own)⟩

section
variable {hb : BuildHasher L R} {lc rc : Nat} {ls ls' : List (LRec L R)} {rs rs' : List (RRec R)} {x : LRec L R}
  {y : RRec R}

theorem Tied.perm (h : Tied hb lc rc ls rs) (hl : ls.Perm ls') (hr : rs.Perm rs') : Tied hb lc rc ls' rs' where
  idsL := (hl.pairwise_iff (fun h => Ne.symm h)).1 h.idsL
  idsR := (hr.pairwise_iff (fun h => Ne.symm h)).1 h.idsR
  boundL := fun x hm => h.boundL x (hl.mem_iff.2 hm)
  boundR := fun y hm => h.boundR y (hr.mem_iff.2 hm)
  owner := fun x hm => by
    obtain ⟨y, hy, e⟩ := h.owner x (hl.mem_iff.2 hm)
    exact ⟨y, hr.mem_iff.1 hy, e⟩
  pairs := fun y hm => (h.pairs y (hr.mem_iff.2 hm)).trans ((hl.filter _).map _)
  fresh := fun x hm => h.fresh x (hl.mem_iff.2 hm)

theorem Tied.tailL (h : Tied hb lc rc (x :: ls) rs) : ∀ a ∈ ls, a.id ≠ x.id :=
  fun a ha => ((List.pairwise_cons.1 h.idsL).1 a ha).symm
theorem Tied.tailR (h : Tied hb lc rc ls (y :: rs)) : ∀ a ∈ rs, a.id ≠ y.id :=
  fun a ha => ((List.pairwise_cons.1 h.idsR).1 a ha).symm

theorem Tied.sameL (h : Tied hb lc rc ls rs) {a b : LRec L R} (ha : a ∈ ls) (hb' : b ∈ ls) (he : a.id = b.id) : a = b := by
  obtain ⟨ls', hp⟩ := perm_cons_of_mem ha
  rcases List.mem_cons.1 (hp.mem_iff.1 hb') with e | hm
  · exact e.symm
  · exact absurd he.symm ((h.perm hp (.refl _)).tailL b hm)

theorem Tied.sameR (h : Tied hb lc rc ls rs) {a b : RRec R} (ha : a ∈ rs) (hb' : b ∈ rs) (he : a.id = b.id) : a = b := by
  obtain ⟨rs', hp⟩ := perm_cons_of_mem ha
  rcases List.mem_cons.1 (hp.mem_iff.1 hb') with e | hm
  · exact e.symm
  · exact absurd he.symm ((h.perm (.refl _) hp).tailR b hm)

theorem Tied.ownerOf (h : Tied hb lc rc ls rs) (hx : x ∈ ls) :
    ∃ y rs', rs.Perm (y :: rs') ∧ y.id = x.own ∧ y.r = x.r := by
  obtain ⟨y, hy, e1, e2⟩ := h.owner x hx
  obtain ⟨rs', hp⟩ := perm_cons_of_mem hy
  exact ⟨y, rs', hp, e1, e2⟩

/-- a right item refers to exactly its own left items -/
theorem Tied.mem_pairs (h : Tied hb lc rc ls rs) (hx : x ∈ ls) (hy : y ∈ rs) : key hb x ∈ y.pairs.entries ↔ x.own = y.id := by
  rw [(h.pairs y hy).mem_iff]
  constructor
  · intro hm
    obtain ⟨a, ha, e⟩ := List.mem_map.1 hm
    have ha2 := List.mem_filter.1 ha
    have : a = x := h.sameL ha2.1 hx (by simpa [key] using (Prod.ext_iff.1 e).2)
    subst this
    simpa using ha2.2
  · intro e
    exact List.mem_map_of_mem (List.mem_filter.2 ⟨hx, by simp [e]⟩)

theorem Tied.new_not_mem (h : Tied hb lc rc ls rs) {i : Nat} (hi : ∀ a ∈ ls, a.id ≠ i) (hy : y ∈ rs) (k : UInt64) :
    (k, i) ∉ y.pairs.entries := by
  rw [(h.pairs y hy).mem_iff]
  intro hm
  obtain ⟨a, ha, e⟩ := List.mem_map.1 hm
  exact hi a (List.mem_filter.1 ha).1 (Prod.ext_iff.1 e).2

theorem Tied.onlyOwner (h : Tied hb lc rc (x :: ls) (y :: rs)) (ho : y.id = x.own) :
    key hb x ∈ y.pairs.entries ∧ ∀ a ∈ rs, key hb x ∉ a.pairs.entries := by
  refine ⟨(h.mem_pairs List.mem_cons_self List.mem_cons_self).2 ho.symm, fun a ha hm => ?_⟩
  have := (h.mem_pairs List.mem_cons_self (List.mem_cons_of_mem _ ha)).1 hm
  exact h.tailR a ha (by rw [ho, this])

theorem Tied.newL (h : Tied hb lc rc ls rs) : ∀ a ∈ ls, a.id ≠ lc := fun a ha => Nat.ne_of_lt (h.boundL a ha)

/-! ### Elementary changes -/

/-- a new right item without left items -/
theorem Tied.addRight (h : Tied hb lc rc ls rs) {r : R} {s : PairSet} (hs : s.entries = []) :
    Tied hb lc (rc + 1) ls (⟨r, rc, s⟩ :: rs) where
  idsL := h.idsL
  idsR := List.pairwise_cons.2 ⟨fun a ha e => by have := h.boundR a ha; simp at e; omega, h.idsR⟩
  boundL := h.boundL
  boundR := by
    intro y hy
    rcases List.mem_cons.1 hy with rfl | hy
    · simp
    · have := h.boundR y hy; omega
  owner := fun x hx => by
    obtain ⟨y, hy, e⟩ := h.owner x hx
    exact ⟨y, List.mem_cons_of_mem _ hy, e⟩
  pairs := by
    intro y hy
    rcases List.mem_cons.1 hy with rfl | hy
    · simp only [hs]
      rw [show mine ls rc = [] from ?_]; · simp
      rw [mine, List.filter_eq_nil_iff]
      intro x hx
      obtain ⟨z, hz, e, -⟩ := h.owner x hx
      have := h.boundR z hz
      simp; omega
    · exact h.pairs y hy
  fresh := h.fresh

/-- a left item is added to the right item `y` -/
theorem Tied.addLeft (h : Tied hb lc rc ls (y :: rs)) {l : L} {i lc' : Nat}
    (hi : ∀ x ∈ ls, x.id ≠ i) (hlt : i < lc') (hle : lc ≤ lc') {s : PairSet}
    (hs : s.entries.Perm ((hb.hl l, i) :: y.pairs.entries)) :
    Tied hb lc' rc (⟨l, i, y.r, y.id, y.id⟩ :: ls) (⟨y.r, y.id, s⟩ :: rs) where
  idsL := List.pairwise_cons.2 ⟨fun a ha => (hi a ha).symm, h.idsL⟩
  idsR := List.pairwise_cons.2 ⟨fun a ha => (h.tailR a ha).symm, (List.pairwise_cons.1 h.idsR).2⟩
  boundL := by
    intro x hx
    rcases List.mem_cons.1 hx with rfl | hx
    · exact hlt
    · exact Nat.lt_of_lt_of_le (h.boundL x hx) hle
  boundR := by
    intro a ha
    rcases List.mem_cons.1 ha with rfl | ha
    · exact h.boundR y List.mem_cons_self
    · exact h.boundR a (List.mem_cons_of_mem _ ha)
  owner := by
    intro x hx
    rcases List.mem_cons.1 hx with rfl | hx
    · exact ⟨_, List.mem_cons_self, rfl, rfl⟩
    · obtain ⟨z, hz, e⟩ := h.owner x hx
      rcases List.mem_cons.1 hz with rfl | hz
      · exact ⟨_, List.mem_cons_self, e⟩
      · exact ⟨z, List.mem_cons_of_mem _ hz, e⟩
  pairs := by
    intro a ha
    rcases List.mem_cons.1 ha with rfl | ha
    · refine hs.trans ?_
      rw [mine, List.filter_cons_of_pos (by simp), List.map_cons]
      exact (h.pairs y List.mem_cons_self).cons _
    · rw [mine, List.filter_cons_of_neg (by simpa using (h.tailR a ha).symm)]
      exact h.pairs a (List.mem_cons_of_mem _ ha)
  fresh := by
    intro x hx
    rcases List.mem_cons.1 hx with rfl | hx
    · rfl
    · exact h.fresh x hx

/-- a left item leaves its right item -/
theorem Tied.dropLeft (h : Tied hb lc rc (x :: ls) (y :: rs)) (ho : y.id = x.own) {s : PairSet}
    (hs : s.entries.Perm (y.pairs.entries.erase (key hb x))) : Tied hb lc rc ls (⟨y.r, y.id, s⟩ :: rs) where
  idsL := (List.pairwise_cons.1 h.idsL).2
  idsR := List.pairwise_cons.2 ⟨fun a ha => (h.tailR a ha).symm, (List.pairwise_cons.1 h.idsR).2⟩
  boundL := fun a ha => h.boundL a (List.mem_cons_of_mem _ ha)
  boundR := by
    intro a ha
    rcases List.mem_cons.1 ha with rfl | ha
    · exact h.boundR y List.mem_cons_self
    · exact h.boundR a (List.mem_cons_of_mem _ ha)
  owner := by
    intro a ha
    obtain ⟨z, hz, e⟩ := h.owner a (List.mem_cons_of_mem _ ha)
    rcases List.mem_cons.1 hz with rfl | hz
    · exact ⟨_, List.mem_cons_self, e⟩
    · exact ⟨z, List.mem_cons_of_mem _ hz, e⟩
  pairs := by
    intro a ha
    rcases List.mem_cons.1 ha with rfl | ha
    · refine hs.trans ?_
      have := h.pairs y List.mem_cons_self
      rw [mine, List.filter_cons_of_pos (by simp [ho]), List.map_cons] at this
      refine (this.erase _).trans ?_
      rw [List.erase_cons_head]
      exact .refl _
    · have := h.pairs a (List.mem_cons_of_mem _ ha)
      rwa [mine, List.filter_cons_of_neg (by have := h.tailR a ha; rw [← ho]; simpa using this.symm)] at this
  fresh := fun a ha => h.fresh a (List.mem_cons_of_mem _ ha)

/-- a right item goes, with all its left items -/
theorem Tied.dropRight (h : Tied hb lc rc ls (y :: rs)) : Tied hb lc rc (ls.filter fun x => !(x.own == y.id)) rs where
  idsL := h.idsL.filter _
  idsR := (List.pairwise_cons.1 h.idsR).2
  boundL := fun x hx => h.boundL x (List.mem_filter.1 hx).1
  boundR := fun a ha => h.boundR a (List.mem_cons_of_mem _ ha)
  owner := by
    intro x hx
    have hx := List.mem_filter.1 hx
    obtain ⟨z, hz, e⟩ := h.owner x hx.1
    rcases List.mem_cons.1 hz with rfl | hz
    · simp [e.1] at hx
    · exact ⟨z, hz, e⟩
  pairs := by
    intro a ha
    refine (h.pairs a (List.mem_cons_of_mem _ ha)).trans ?_
    rw [mine, mine, List.filter_filter]
    refine .of_eq (congrArg _ (List.filter_congr fun x _ => ?_))
    cases hc : x.own == a.id
    · rfl
    · have := h.tailR a ha
      simp at hc
      simp [hc, this]
  fresh := fun x hx => h.fresh x (List.mem_filter.1 hx).1

end

/-! ### Tables -/
variable {m : GroupMap L R} {ls ls' : List (LRec L R)} {rs rs' : List (RRec R)} {x : LRec L R} {y z : RRec R} {l : L} {r : R}

theorem Linked.perm (h : Linked m ls rs) (hl : ls.Perm ls') (hr : rs.Perm rs') : Linked m ls' rs' :=
  ⟨h.left.trans (hl.map _), h.right.trans (hr.map _), h.tied.perm hl hr⟩

theorem Linked.consL (h : Linked m (x :: ls) rs) : m.left.entries.Perm (toL m.hb x :: ls.map (toL m.hb)) := h.left
theorem Linked.consR (h : Linked m ls (y :: rs)) : m.right.entries.Perm (toR m.hb y :: rs.map (toR m.hb)) := h.right

/-- looking up a left item: a miss means that nothing matches, a hit is one of the records -/
theorem Linked.probeL (h : Linked m ls rs) (l : L) :
    (m.left.get (m.hb.hl l) (equivalentKeyLeft l) = none ∧ ∀ x ∈ ls, (x.l == l) = false) ∨
    ∃ x ls', ls.Perm (x :: ls') ∧ (x.l == l) = true ∧
      m.left.get (m.hb.hl l) (equivalentKeyLeft l) = some (toL m.hb x).2 := by
  cases e : m.left.get (m.hb.hl l) (equivalentKeyLeft l) with
  | none =>
    refine .inl ⟨rfl, fun x hx => eq_false_of_ne_true' fun hc => ?_⟩
    have hmem : toL m.hb x ∈ m.left.entries := h.left.mem_iff.2 (List.mem_map.2 ⟨x, hx, rfl⟩)
    have hf := LawfulRaw.find_complete m.left (m.hb.hl l) (equivalentKeyLeft l) _ hmem (m.hb.hl_congr _ _ hc) hc
    rw [RawTable.get] at e
    split at e
    · exact hf ‹_›
    · rename_i i hi
      obtain ⟨x, hx, -⟩ := LawfulRaw.find_sound _ _ _ _ hi
      rw [hx] at e; cases e
  | some v =>
    obtain ⟨h1, k, h2⟩ := RawTable.get_mem e
    obtain ⟨x, hx, hv⟩ := List.mem_map.1 (h.left.mem_iff.1 h2)
    obtain ⟨ls', hq⟩ := perm_cons_of_mem hx
    refine .inr ⟨x, ls', hq, ?_, by rw [hv]⟩
    have : (toL m.hb x).2 = v := by rw [hv]
    rw [← this] at h1; exact h1

theorem Linked.probeR (h : Linked m ls rs) (r : R) :
    (m.right.get (m.hb.hr r) (equivalentKeyRight r) = none ∧ ∀ y ∈ rs, (y.r == r) = false) ∨
    ∃ y rs', rs.Perm (y :: rs') ∧ (y.r == r) = true ∧
      m.right.get (m.hb.hr r) (equivalentKeyRight r) = some (toR m.hb y).2 := by
  cases e : m.right.get (m.hb.hr r) (equivalentKeyRight r) with
  | none =>
    refine .inl ⟨rfl, fun x hx => eq_false_of_ne_true' fun hc => ?_⟩
    have hmem : toR m.hb x ∈ m.right.entries := h.right.mem_iff.2 (List.mem_map.2 ⟨x, hx, rfl⟩)
    have hf := LawfulRaw.find_complete m.right (m.hb.hr r) (equivalentKeyRight r) _ hmem (m.hb.hr_congr _ _ hc) hc
    rw [RawTable.get] at e
    split at e
    · exact hf ‹_›
    · rename_i i hi
      obtain ⟨x, hx, -⟩ := LawfulRaw.find_sound _ _ _ _ hi
      rw [hx] at e; cases e
  | some v =>
    obtain ⟨h1, k, h2⟩ := RawTable.get_mem e
    obtain ⟨x, hx, hv⟩ := List.mem_map.1 (h.right.mem_iff.1 h2)
    obtain ⟨rs', hq⟩ := perm_cons_of_mem hx
    refine .inr ⟨x, rs', hq, ?_, by rw [hv]⟩
    have : (toR m.hb x).2 = v := by rw [hv]
    rw [← this] at h1; exact h1

/-- what a lookup of a left item finds can be taken out or written -/
theorem accessL {hb : BuildHasher L R} {t : RawTable (LeftItem L)} {k q}
    (ht : t.entries.Perm (toL hb x :: ls.map (toL hb))) (hn : ∀ a ∈ ls, a.id ≠ x.id)
    (e : t.get k q = some (toL hb x).2) :
    (∃ t', t.removeEntry k q = some ((toL hb x).2, t') ∧ t'.entries.Perm (ls.map (toL hb))) ∧
    ∃ w, t.getMut k q = some ((toL hb x).2, w) ∧ ∀ v, (w v).entries.Perm ((hb.hl x.l, v) :: ls.map (toL hb)) := by
  obtain ⟨k', es, hp, ⟨t', e1, p1⟩, w, e2, p2⟩ := access_of_get e
  have hk : k' = hb.hl x.l := by
    rcases List.mem_cons.1 (ht.mem_iff.1 (hp.mem_iff.2 List.mem_cons_self)) with h | h
    · exact congrArg Prod.fst h
    · obtain ⟨a, ha, hv⟩ := List.mem_map.1 h
      exact absurd (congrArg (fun v => v.2.id) hv) (hn a ha)
  subst hk
  have hes : es.Perm (ls.map (toL hb)) := (hp.symm.trans ht).cons_inv
  exact ⟨⟨t', e1, p1.trans hes⟩, w, e2, fun v => (p2 v).trans (hes.cons _)⟩

theorem accessR {hb : BuildHasher L R} {t : RawTable (RightItem R)} {k q}
    (ht : t.entries.Perm (toR hb y :: rs.map (toR hb))) (hn : ∀ a ∈ rs, a.id ≠ y.id)
    (e : t.get k q = some (toR hb y).2) :
    (∃ t', t.removeEntry k q = some ((toR hb y).2, t') ∧ t'.entries.Perm (rs.map (toR hb))) ∧
    ∃ w, t.getMut k q = some ((toR hb y).2, w) ∧ ∀ v, (w v).entries.Perm ((hb.hr y.r, v) :: rs.map (toR hb)) := by
  obtain ⟨k', es, hp, ⟨t', e1, p1⟩, w, e2, p2⟩ := access_of_get e
  have hk : k' = hb.hr y.r := by
    rcases List.mem_cons.1 (ht.mem_iff.1 (hp.mem_iff.2 List.mem_cons_self)) with h | h
    · exact congrArg Prod.fst h
    · obtain ⟨a, ha, hv⟩ := List.mem_map.1 h
      exact absurd (congrArg (fun v => v.2.id) hv) (hn a ha)
  subst hk
  have hes : es.Perm (rs.map (toR hb)) := (hp.symm.trans ht).cons_inv
  exact ⟨⟨t', e1, p1.trans hes⟩, w, e2, fun v => (p2 v).trans (hes.cons _)⟩

/-! ### The groups -/

theorem noL_groups : NoL (groups ls rs) l ↔ ∀ x ∈ ls, (x.l == l) = false := by simp [NoL, groups]
theorem noR_groups : NoR (groups ls rs) r ↔ ∀ y ∈ rs, (y.r == r) = false := by simp [NoR, groups]

theorem same_groups (hl : ls.Perm ls') (hr : rs.Perm rs') : Same (groups ls rs) (groups ls' rs') := ⟨hr.map _, hl.map _⟩

theorem hit_groups (hy : y ∈ rs) (hr : (y.r == r) = true) : Hit (groups ls rs) r (y.id, y.r) :=
  ⟨List.mem_map.2 ⟨y, hy, rfl⟩, hr⟩

theorem new_groups {i : Nat} : New (groups ls rs) i ↔ ∀ y ∈ rs, y.id ≠ i := by simp [New, groups]

theorem group_groups (i : Nat) : GroupWeak.group (groups ls rs) i = (mine ls i).map (·.l) := by
  rw [GroupWeak.group, groups, List.filter_map, List.map_map, mine]; rfl

/-! ### `remove_left` -/

theorem removeLeft_hit_raw (hL : m.left.entries.Perm (toL m.hb x :: ls.map (toL m.hb)))
    (hR : m.right.entries.Perm (toR m.hb y :: rs.map (toR m.hb))) (hl : (x.l == l) = true)
    (hid : ∀ a ∈ ls, a.id ≠ x.id) (e : m.left.get (m.hb.hl l) (equivalentKeyLeft l) = some (toL m.hb x).2)
    (hr : y.r = x.r) (hk : key m.hb x ∈ y.pairs.entries) (hnk : ∀ a ∈ rs, key m.hb x ∉ a.pairs.entries) :
    ∃ t1 t2, m.removeLeft l = .ok (some x.l, { m with left := t1, right := t2 }) ∧ t1.entries.Perm (ls.map (toL m.hb)) ∧
      t2.entries.Perm (toR m.hb ⟨y.r, y.id, y.pairs.remove (key m.hb x)⟩ :: rs.map (toR m.hb)) := by
  obtain ⟨⟨t', e1, p1⟩, -⟩ := accessL hL hid e
  have hke : (m.hb.hl l, (toL m.hb x).2.id) = key m.hb x := by simp [key, toL, m.hb.hl_congr _ _ hl]
  obtain ⟨w, e2, p2⟩ := getMutR_pair hR hk hnk
  refine ⟨t', w ⟨y.r, y.pairs.remove (key m.hb x), y.id⟩, ?_, p1, p2 _⟩
  unfold removeLeft
  simp only [e1, hke]
  rw [show (toL m.hb x).2.hash = m.hb.hr y.r by rw [hr]; rfl, e2]
  rfl

theorem removeLeft_weak (h : Linked m ls rs) (l : L) :
    ∃ t m' ls' rs', m.removeLeft l = .ok (t.map (·.1), m') ∧ TakeL (groups ls rs) l t (groups ls' rs') ∧
      Linked m' ls' rs' ∧ m'.hb = m.hb := by
  rcases h.probeL l with ⟨e, hn⟩ | ⟨x, ls', hp, hl, e⟩
  · refine ⟨none, m, ls, rs, ?_, .inl ⟨rfl, noL_groups.2 hn, same_groups (.refl _) (.refl _)⟩, h, rfl⟩
    simp only [removeLeft, removeEntry_of_get_none e]; rfl
  · obtain ⟨y, rs', hq, ho, hy⟩ := h.tied.ownerOf (hp.mem_iff.2 List.mem_cons_self)
    have h := h.perm hp hq
    have ho' := h.tied.onlyOwner ho
    obtain ⟨t1, t2, e1, p1, p2⟩ := removeLeft_hit_raw h.consL h.consR hl h.tied.tailL e hy ho'.1 ho'.2
    refine ⟨some (x.l, x.own), _, ls', ⟨y.r, y.id, y.pairs.remove (key m.hb x)⟩ :: rs', e1, .inr ⟨_, rfl, hl, ?_, ?_⟩,
      ⟨p1, p2, h.tied.dropLeft ho (PairSet.remove_perm _ _)⟩, rfl⟩
    · exact hp.map _
    · exact (hq.map fun y => (y.id, y.r)).symm

/-! ### `remove_right` -/

theorem removeAll_weak {hb : BuildHasher L R} (xs ls : List (LRec L R)) (t : RawTable (LeftItem L))
    (ht : t.entries.Perm ((xs ++ ls).map (toL hb))) (ha : (xs ++ ls).Pairwise (·.id ≠ ·.id)) :
    ∃ t', removeAll t (xs.map (key hb)) = .ok (xs.map (·.l), t') ∧ t'.entries.Perm (ls.map (toL hb)) := by
  induction xs generalizing t with
  | nil => exact ⟨t, rfl, ht⟩
  | cons x xs ih =>
    rw [List.cons_append] at ha
    have h2 := List.pairwise_cons.1 ha
    obtain ⟨t1, e1, p1⟩ := removeL_id (hb := hb) (x := x) (ls := xs ++ ls) (by simpa using ht) fun a ha => (h2.1 a ha).symm
    obtain ⟨t2, e2, p2⟩ := ih t1 p1 h2.2
    refine ⟨t2, ?_, p2⟩
    simp only [List.map_cons, removeAll, key] at e2 ⊢
    simp only [e1]
    simp [e2, toL, bind, Except.bind, pure, Except.pure]

theorem removeAll_group (h : Linked m ls (y :: rs)) :
    ∃ (qs : List (LRec L R)) (t' : RawTable (LeftItem L)), qs.Perm (mine ls y.id) ∧
      removeAll m.left y.pairs.entries = .ok (qs.map (·.l), t') ∧
      t'.entries.Perm ((ls.filter fun x => !(x.own == y.id)).map (toL m.hb)) := by
  obtain ⟨qs, hq, e⟩ := perm_map_inv (h.tied.pairs y List.mem_cons_self)
  have hp : ls.Perm (qs ++ ls.filter fun x => !(x.own == y.id)) :=
    (List.filter_append_perm (fun x : LRec L R => x.own == y.id) ls).symm.trans (hq.append_right _)
  have ha := (hp.pairwise_iff (fun h => Ne.symm h)).1 h.tied.idsL
  obtain ⟨t', e1, p1⟩ := removeAll_weak (hb := m.hb) qs _ m.left (h.left.trans (hp.map _)) ha
  exact ⟨qs, t', hq.symm, by rw [e, e1], p1⟩

theorem drop_groups {qs : List (LRec L R)} (hq : rs.Perm (y :: rs')) (hp : qs.Perm (mine ls y.id)) :
    Drop (groups ls rs) (y.id, y.r) (some (collectSet (qs.map (·.l)), y.r))
      (groups (ls.filter fun x => !(x.own == y.id)) rs') := by
  refine ⟨hq.map _, .of_eq ?_, qs.map (·.l), ?_, rfl⟩
  · simp only [groups]; rw [List.filter_map]; rfl
  · rw [group_groups]; exact hp.map _

/-- removing the right item that a lookup finds -/
theorem removeRight_hit (h : Linked m ls rs) (hq : rs.Perm (y :: rs'))
    (e : m.right.get (m.hb.hr r) (equivalentKeyRight r) = some (toR m.hb y).2) :
    ∃ o m' ls', m.removeRight r = .ok (o, m') ∧ Drop (groups ls rs) (y.id, y.r) o (groups ls' rs') ∧
      Linked m' ls' rs' ∧ m'.hb = m.hb := by
  have h' := h.perm (.refl _) hq
  obtain ⟨⟨t1, e1, p1⟩, -⟩ := accessR h'.consR h'.tied.tailR e
  obtain ⟨qs, t2, hp, e2, p2⟩ := removeAll_group h'
  refine ⟨_, { m with left := t2, right := t1 }, _, ?_, drop_groups hq hp, ⟨p2, p1, h'.tied.dropRight⟩, rfl⟩
  unfold removeRight
  simp only [e1, toR, e2, bind, Except.bind, pure, Except.pure]

theorem removeRight_weak (h : Linked m ls rs) (r : R) :
    ∃ o m' ls' rs', m.removeRight r = .ok (o, m') ∧ TakeR (groups ls rs) r o (groups ls' rs') ∧
      Linked m' ls' rs' ∧ m'.hb = m.hb := by
  rcases h.probeR r with ⟨e, hn⟩ | ⟨y, rs', hq, hr, e⟩
  · refine ⟨none, m, ls, rs, ?_, .inl ⟨rfl, noR_groups.2 hn, same_groups (.refl _) (.refl _)⟩, h, rfl⟩
    simp only [removeRight, removeEntry_of_get_none e]
  · obtain ⟨o, m', ls', e1, hd, h', hb⟩ := removeRight_hit h hq e
    exact ⟨o, m', ls', rs', e1, .inr ⟨_, hr, hd⟩, h', hb⟩

/-! ### Adding items -/

theorem newLabel (h : Linked m ls rs) : New (groups ls rs) m.rightCounter :=
  new_groups.2 fun y hy => Nat.ne_of_lt (h.tied.boundR y hy)

/-- a new right item -/
theorem Linked.addRight (h : Linked m ls rs) (r : R) (n : Nat) :
    Linked { m with rightCounter := m.rightCounter + 1, right := m.right.insert (m.hb.hr r) ⟨r, PairSet.new n, m.rightCounter⟩ (·.hashWith m.hb.hr) }
      ls (⟨r, m.rightCounter, PairSet.new n⟩ :: rs) :=
  ⟨h.left, (RawTable.insert_perm _ _ _ (hashesR h.right)).trans (h.right.cons _), h.tied.addRight (PairSet.new_entries n)⟩

/-- a new pair -/
theorem Linked.addBoth (h : Linked m ls rs) (l : L) (r : R) (n : Nat) :
    Linked { m with
          leftCounter := m.leftCounter + 1, rightCounter := m.rightCounter + 1
          left := m.left.insert (m.hb.hl l) ⟨l, m.hb.hr r, m.rightCounter, m.leftCounter⟩ (·.hashWith m.hb.hl)
          right := m.right.insert (m.hb.hr r)
            ⟨r, (PairSet.new n).insert (m.hb.hl l, m.leftCounter), m.rightCounter⟩ (·.hashWith m.hb.hr) }
      (⟨l, m.leftCounter, r, m.rightCounter, m.rightCounter⟩ :: ls)
      (⟨r, m.rightCounter, (PairSet.new n).insert (m.hb.hl l, m.leftCounter)⟩ :: rs) where
  left := (RawTable.insert_perm _ _ _ (hashesL h.left)).trans (h.left.cons _)
  right := (RawTable.insert_perm _ _ _ (hashesR h.right)).trans (h.right.cons _)
  tied := by
    have h1 := h.tied.addRight (r := r) (PairSet.new_entries n)
    refine h1.addLeft h.tied.newL (Nat.lt_succ_self _) (Nat.le_succ _) ?_
    exact PairSet.insert_perm (by rw [PairSet.new_entries]; simp)

theorem insertRight_weak (h : Linked m ls rs) (r : R) :
    ∃ o m' ls' rs', m.insertRight r = .ok (o, m') ∧ InsertRight (groups ls rs) r o (groups ls' rs') ∧
      Linked m' ls' rs' ∧ m'.hb = m.hb := by
  obtain ⟨o, m1, ls1, rs1, e, t, h1, hb⟩ := removeRight_weak h r
  refine ⟨o, _, ls1, ⟨r, m1.rightCounter, PairSet.new 0⟩ :: rs1, ?_, ⟨_, m1.rightCounter, t, newLabel h1, .refl _, .refl _⟩, h1.addRight r 0, hb⟩
  simp only [insertRight, e, bind, Except.bind, pure, Except.pure]

theorem insertRemove_weak (h : Linked m ls rs) (l : L) (r : R) :
    ∃ o₁ o₂ m' ls' rs', m.insertRemove l r = .ok ((o₁, o₂), m') ∧
      InsertRemove (groups ls rs) l r o₁ o₂ (groups ls' rs') ∧ Linked m' ls' rs' ∧ m'.hb = m.hb := by
  obtain ⟨t, m1, ls1, rs1, e1, s1, h1, hb1⟩ := removeLeft_weak h l
  obtain ⟨o, m2, ls2, rs2, e2, s2, h2, hb2⟩ := removeRight_weak h1 r
  refine ⟨_, o, _, _, _, ?_, ⟨t, _, _, m2.rightCounter, s1, s2, rfl, newLabel h2, .refl _, .refl _⟩, h2.addBoth l r 1, hb2.trans hb1⟩
  simp only [insertRemove, e1, e2, bind, Except.bind, pure, Except.pure]

/-! ### `insert` -/

theorem insert_weak (h : Linked m ls rs) (l : L) (r : R) (hs : SaneInsert (groups ls rs) l r) :
    ∃ m' ls' rs', m.insert l r = .ok m' ∧ Insert (groups ls rs) l r (groups ls' rs') ∧ Linked m' ls' rs' ∧ m'.hb = m.hb := by
  rcases h.probeL l with ⟨eL, hn⟩ | ⟨x, ls', hp, hl, eL⟩
  · have tl : TakeL (groups ls rs) l none (groups ls rs) :=
      .inl ⟨rfl, noL_groups.2 hn, same_groups (.refl _) (.refl _)⟩
    rcases h.probeR r with ⟨eR, hnr⟩ | ⟨y, rs', hq, hr, eR⟩
    · refine ⟨_, _, _, ?_, ⟨none, _, m.rightCounter, tl, .refl _, .inl ⟨noR_groups.2 hnr, newLabel h, .refl _⟩⟩, h.addBoth l r 1, rfl⟩
      simp only [insert, getMut_of_get_none eL, getMut_of_get_none eR]
    · have h' := h.perm (.refl _) hq
      obtain ⟨-, w, e, p⟩ := accessR h'.consR h'.tied.tailR eR
      refine ⟨{ m with left := m.left.insert (m.hb.hl l) ⟨l, m.hb.hr r, y.id, m.leftCounter⟩ (·.hashWith m.hb.hl)
                       right := w ⟨y.r, y.pairs.insert (m.hb.hl l, m.leftCounter), y.id⟩
                       leftCounter := m.leftCounter + 1 },
        ⟨l, m.leftCounter, y.r, y.id, y.id⟩ :: ls, ⟨y.r, y.id, y.pairs.insert (m.hb.hl l, m.leftCounter)⟩ :: rs', ?_,
        ⟨none, _, y.id, tl, .refl _, .inr ⟨_, hit_groups (hq.mem_iff.2 List.mem_cons_self) hr, rfl, ?_⟩⟩, ⟨?_, p _, ?_⟩, rfl⟩
      · simp only [insert, getMut_of_get_none eL, e, toR]
      · exact (hq.map fun y => (y.id, y.r)).symm
      · refine (RawTable.insert_perm _ _ _ (hashesL h.left)).trans ?_
        rw [List.map_cons, toL, m.hb.hr_congr _ _ hr]
        exact h.left.cons _
      · exact h'.tied.addLeft h.tied.newL (Nat.lt_succ_self _) (Nat.le_succ _)
          (PairSet.insert_perm (h'.tied.new_not_mem h.tied.newL List.mem_cons_self _))
  · obtain ⟨z, rs1, hz, ho, hzr⟩ := h.tied.ownerOf (hp.mem_iff.2 List.mem_cons_self)
    have hk : (m.hb.hl l, x.id) = key m.hb x := by simp [key, m.hb.hl_congr _ _ hl]
    have h1 := h.perm hp hz
    have tl : TakeL (groups ls rs) l (some (x.l, x.own)) (groups ls' rs) := .inr ⟨_, rfl, hl, hp.map _, .refl _⟩
    obtain ⟨-, w, e, p⟩ := accessL h1.consL h1.tied.tailL eL
    rcases h.probeR r with ⟨eR, hnr⟩ | ⟨y, rs', hq, hr, eR⟩
    · have ho' := h1.tied.onlyOwner ho
      obtain ⟨w2, e2, p2⟩ := getMutR_pair h1.consR ho'.1 ho'.2
      refine ⟨{ m with left := w ⟨x.l, m.hb.hr r, m.rightCounter, x.id⟩
                       right := (w2 ⟨z.r, z.pairs.remove (key m.hb x), z.id⟩).insert (m.hb.hr r)
                         ⟨r, (PairSet.new 1).insert (key m.hb x), m.rightCounter⟩ (·.hashWith m.hb.hr)
                       rightCounter := m.rightCounter + 1 },
        ⟨x.l, x.id, r, m.rightCounter, m.rightCounter⟩ :: ls',
        ⟨r, m.rightCounter, (PairSet.new 1).insert (key m.hb x)⟩ :: ⟨z.r, z.id, z.pairs.remove (key m.hb x)⟩ :: rs1,
        ?_, ⟨_, _, m.rightCounter, tl, .refl _, .inl ⟨noR_groups.2 hnr, newLabel h, ?_⟩⟩, ⟨p _, ?_, ?_⟩, rfl⟩
      · simp only [insert, e, getMut_of_get_none eR, toL, hk]
        simp only [show m.hb.hr x.r = m.hb.hr z.r by rw [hzr], e2, toR]
      · exact ((hz.map fun y => (y.id, y.r)).symm).cons _
      · exact (RawTable.insert_perm _ _ _ (hashesR (rs := ⟨z.r, z.id, z.pairs.remove (key m.hb x)⟩ :: rs1) (p2 _))).trans ((p2 _).cons _)
      · have t1 := h1.tied.dropLeft ho (PairSet.remove_perm z.pairs (key m.hb x))
        have t2 := t1.addRight (r := r) (PairSet.new_entries 1)
        exact t2.addLeft h1.tied.tailL (h1.tied.boundL x List.mem_cons_self) (Nat.le_refl _)
          (PairSet.insert_perm (by rw [PairSet.new_entries]; simp))
    · have hyz : y.id ≠ z.id := fun hc => hs (y.id, y.r) ⟨hit_groups (hq.mem_iff.2 List.mem_cons_self) hr, x.l,
        List.mem_map.2 ⟨x, hp.mem_iff.2 List.mem_cons_self, by rw [← ho, ← hc]⟩, hl⟩
      have hyr : y ∈ rs1 := by
        rcases List.mem_cons.1 (hz.mem_iff.1 (hq.mem_iff.2 List.mem_cons_self)) with rfl | hm
        · exact absurd rfl hyz
        · exact hm
      obtain ⟨rs2, h2⟩ := perm_cons_of_mem hyr
      have hrs : rs.Perm (y :: z :: rs2) := hz.trans ((h2.cons z).trans (.swap _ _ _))
      have h' := h.perm hp hrs
      have hw := h'.tied.perm (.refl _) (.swap z y rs2)
      obtain ⟨-, w2, e2, p2⟩ := accessR h'.consR h'.tied.tailR eR
      have hid : ∀ a ∈ (⟨y.r, y.id, y.pairs.insert (key m.hb x)⟩ : RRec R) :: rs2, a.id ≠ z.id := by
        intro a ha
        rcases List.mem_cons.1 ha with rfl | ha
        · exact hyz
        · exact hw.tailR a (List.mem_cons_of_mem _ ha)
      obtain ⟨w3, e3, p3⟩ := getMutR_id (hb := m.hb) (t := w2 ⟨y.r, y.pairs.insert (key m.hb x), y.id⟩)
        (rs := ⟨y.r, y.id, y.pairs.insert (key m.hb x)⟩ :: rs2) ((p2 _).trans (.swap _ _ _)) hid
      refine ⟨{ m with left := w ⟨x.l, m.hb.hr r, y.id, x.id⟩
                       right := w3 ⟨z.r, z.pairs.remove (key m.hb x), z.id⟩ },
        ⟨x.l, x.id, y.r, y.id, y.id⟩ :: ls',
        ⟨y.r, y.id, y.pairs.insert (key m.hb x)⟩ :: ⟨z.r, z.id, z.pairs.remove (key m.hb x)⟩ :: rs2,
        ?_, ⟨_, _, y.id, tl, .refl _, .inr ⟨_, hit_groups (hq.mem_iff.2 List.mem_cons_self) hr, rfl, ?_⟩⟩,
        ⟨?_, (p3 _).trans (.swap _ _ _), ?_⟩, rfl⟩
      · simp only [insert, e, e2, toL, toR, hk]
        simp only [show m.hb.hr x.r = m.hb.hr z.r by rw [hzr], h1.tied.fresh x List.mem_cons_self, ← ho, e3, toR]
      · exact (hrs.map fun y => (y.id, y.r)).symm
      · have := p ⟨x.l, m.hb.hr r, y.id, x.id⟩
        rw [List.map_cons, toL, m.hb.hr_congr _ _ hr]
        exact this
      · have t1 := hw.dropLeft ho (PairSet.remove_perm z.pairs (key m.hb x))
        have t2 := t1.perm (.refl _) (.swap y _ rs2)
        exact t2.addLeft h1.tied.tailL (h1.tied.boundL x List.mem_cons_self) (Nat.le_refl _)
          (PairSet.insert_perm (by
            rw [h'.tied.mem_pairs List.mem_cons_self List.mem_cons_self, ← ho]
            exact fun hc => hyz hc.symm))

/-! ### `insert_left` -/

theorem insertLeft_weak (h : Linked m ls rs) (l : L) (r : R) :
    ∃ o m' ls' rs', m.insertLeft l r = .ok (o, m') ∧ InsertLeft (groups ls rs) l r o (groups ls' rs') ∧
      Linked m' ls' rs' ∧ m'.hb = m.hb := by
  rcases h.probeR r with ⟨eR, hnr⟩ | ⟨y, rs1, hq, hr, eR⟩
  · refine ⟨none, m, ls, rs, ?_, .inl ⟨rfl, noR_groups.2 hnr, same_groups (.refl _) (.refl _)⟩, h, rfl⟩
    simp only [insertLeft, getMut_of_get_none eR]
  · have hit := hit_groups (ls := ls) (hq.mem_iff.2 List.mem_cons_self) hr
    have hg := (hq.map fun (y : RRec R) => (y.id, y.r)).symm
    have h1 := h.perm (.refl _) hq
    obtain ⟨-, w, e, p⟩ := accessR h1.consR h1.tied.tailR eR
    have hins := PairSet.insert_perm (h1.tied.new_not_mem h1.tied.newL List.mem_cons_self (m.hb.hl l))
    rcases h.probeL l with ⟨eL, hn⟩ | ⟨x, ls', hp, hl, eL⟩
    · refine ⟨none, { m with left := m.left.insert (m.hb.hl l) ⟨l, m.hb.hr r, y.id, m.leftCounter⟩ (·.hashWith m.hb.hl)
                             right := w ⟨y.r, y.pairs.insert (m.hb.hl l, m.leftCounter), y.id⟩
                             leftCounter := m.leftCounter + 1 },
        ⟨l, m.leftCounter, y.r, y.id, y.id⟩ :: ls, ⟨y.r, y.id, y.pairs.insert (m.hb.hl l, m.leftCounter)⟩ :: rs1, ?_,
        .inr ⟨_, none, groups ls rs, hit, .inl ⟨rfl, noL_groups.2 hn, same_groups (.refl _) (.refl _)⟩, rfl, hg, .refl _⟩,
        ⟨?_, p _, ?_⟩, rfl⟩
      · simp only [insertLeft, e, toR, removeLeft, removeEntry_of_get_none eL, bind, Except.bind, pure, Except.pure]
      · refine (RawTable.insert_perm _ _ _ (hashesL h.left)).trans ?_
        rw [List.map_cons, toL, m.hb.hr_congr _ _ hr]
        exact h.left.cons _
      · exact h1.tied.addLeft h.tied.newL (Nat.lt_succ_self _) (Nat.le_succ _) hins
    · have tl : TakeL (groups ls rs) l (some (x.l, x.own)) (groups ls' rs) := .inr ⟨_, rfl, hl, hp.map _, .refl _⟩
      have hx : x ∈ ls := hp.mem_iff.2 List.mem_cons_self
      have hi := h.tied.newL
      have hi' : ∀ a ∈ ls', a.id ≠ m.leftCounter := fun a ha => hi a (hp.mem_iff.2 (List.mem_cons_of_mem _ ha))
      by_cases hc : x.own = y.id
      · -- the left item is one of this right item
        have h2 := h.perm hp hq
        have hyx : y.r = x.r := by
          obtain ⟨z, hz, e1, e2⟩ := h.tied.owner x hx
          rw [← e2, h.tied.sameR hz (hq.mem_iff.2 List.mem_cons_self) (by rw [e1, hc])]
        have ho' := h2.tied.onlyOwner hc.symm
        have hkm : key m.hb x ∈ (y.pairs.insert (m.hb.hl l, m.leftCounter)).entries :=
          hins.mem_iff.2 (List.mem_cons_of_mem _ ho'.1)
        obtain ⟨t1, t2, e2, p1, p2⟩ := removeLeft_hit_raw
          (m := { m with right := w ⟨y.r, y.pairs.insert (m.hb.hl l, m.leftCounter), y.id⟩ })
          (y := ⟨y.r, y.id, y.pairs.insert (m.hb.hl l, m.leftCounter)⟩) (l := l)
          h2.consL (p _) hl h2.tied.tailL eL hyx hkm ho'.2
        refine ⟨_, { m with left := t1.insert (m.hb.hl l) ⟨l, m.hb.hr r, y.id, m.leftCounter⟩ (·.hashWith m.hb.hl)
                            right := t2, leftCounter := m.leftCounter + 1 },
          ⟨l, m.leftCounter, y.r, y.id, y.id⟩ :: ls',
          ⟨y.r, y.id, (y.pairs.insert (m.hb.hl l, m.leftCounter)).remove (key m.hb x)⟩ :: rs1, ?_,
          .inr ⟨_, _, _, hit, tl, rfl, hg, .refl _⟩, ⟨?_, p2, ?_⟩, rfl⟩
        · simp only [insertLeft, e, toR, e2, bind, Except.bind, pure, Except.pure]; rfl
        · refine (RawTable.insert_perm _ _ _ (hashesL p1)).trans ?_
          rw [List.map_cons, toL, m.hb.hr_congr _ _ hr]
          exact p1.cons _
        · have d1 := h2.tied.dropLeft hc.symm (PairSet.remove_perm y.pairs (key m.hb x))
          refine d1.addLeft hi' (Nat.lt_succ_self _) (Nat.le_succ _) ?_
          refine (PairSet.remove_perm _ _).trans ((hins.erase _).trans ?_)
          rw [List.erase_cons_tail (by
            have := hi x hx
            simp [key]; intro _ hc; exact this hc.symm)]
          exact (PairSet.remove_perm y.pairs (key m.hb x)).symm.cons _
      · -- it leaves another right item
        obtain ⟨z, hz, ho, hzr⟩ := h.tied.owner x hx
        have hzm : z ∈ rs1 := by
          rcases List.mem_cons.1 (hq.mem_iff.1 hz) with rfl | hm
          · exact absurd ho.symm hc
          · exact hm
        obtain ⟨rs2, hq2⟩ := perm_cons_of_mem hzm
        have hrs := hq.trans (hq2.cons y)
        have h2 := h.perm hp hrs
        have hw := h2.tied.perm (.refl _) (.swap z y rs2)
        have ho' := hw.onlyOwner ho
        have hnk : ∀ a ∈ (⟨y.r, y.id, y.pairs.insert (m.hb.hl l, m.leftCounter)⟩ : RRec R) :: rs2, key m.hb x ∉ a.pairs.entries := by
          intro a ha
          rcases List.mem_cons.1 ha with rfl | ha
          · simp only
            rw [hins.mem_iff, List.mem_cons, not_or]
            refine ⟨fun hc => ?_, ho'.2 y List.mem_cons_self⟩
            exact hi x hx (Prod.ext_iff.1 hc).2
          · exact ho'.2 a (List.mem_cons_of_mem _ ha)
        have p' := (p ⟨y.r, y.pairs.insert (m.hb.hl l, m.leftCounter), y.id⟩).trans ((hq2.map (toR m.hb)).cons _)
        obtain ⟨t1, t2, e2, p1, p2⟩ := removeLeft_hit_raw
          (m := { m with right := w ⟨y.r, y.pairs.insert (m.hb.hl l, m.leftCounter), y.id⟩ })
          (y := z) (rs := ⟨y.r, y.id, y.pairs.insert (m.hb.hl l, m.leftCounter)⟩ :: rs2) (l := l)
          h2.consL (p'.trans (.swap _ _ _)) hl h2.tied.tailL eL hzr ho'.1 hnk
        refine ⟨_, { m with left := t1.insert (m.hb.hl l) ⟨l, m.hb.hr r, y.id, m.leftCounter⟩ (·.hashWith m.hb.hl)
                            right := t2, leftCounter := m.leftCounter + 1 },
          ⟨l, m.leftCounter, y.r, y.id, y.id⟩ :: ls',
          ⟨y.r, y.id, y.pairs.insert (m.hb.hl l, m.leftCounter)⟩ :: ⟨z.r, z.id, z.pairs.remove (key m.hb x)⟩ :: rs2, ?_,
          .inr ⟨_, _, _, hit, tl, rfl, (hrs.map fun (y : RRec R) => (y.id, y.r)).symm, .refl _⟩, ⟨?_, p2.trans (.swap _ _ _), ?_⟩, rfl⟩
        · simp only [insertLeft, e, toR, e2, bind, Except.bind, pure, Except.pure]; rfl
        · refine (RawTable.insert_perm _ _ _ (hashesL p1)).trans ?_
          rw [List.map_cons, toL, m.hb.hr_congr _ _ hr]
          exact p1.cons _
        · have d1 := hw.dropLeft ho (PairSet.remove_perm z.pairs (key m.hb x))
          have d2 := d1.perm (.refl _) (.swap y _ rs2)
          exact d2.addLeft hi' (Nat.lt_succ_self _) (Nat.le_succ _) hins

/-! ### `pair` -/

theorem pair_weak (h : Linked m ls rs) (l : L) (r : R) (hs : Sane (groups ls rs) (.pair l r)) :
    ∃ b m' ls' rs', m.pair l r = .ok (b, m') ∧ GroupWeak.Step (groups ls rs) (.pair l r) (.bool b) (groups ls' rs') ∧
      Linked m' ls' rs' ∧ m'.hb = m.hb := by
  have hsame : Same (groups ls rs) (groups ls rs) := same_groups (.refl _) (.refl _)
  rcases h.probeL l with ⟨eL, hn⟩ | ⟨x, ls', hp, hl, eL⟩
  · refine ⟨false, m, ls, rs, ?_, .inl ⟨rfl, .inl (noL_groups.2 hn), hsame⟩, h, rfl⟩
    simp only [pair, getMut_of_get_none eL]
  · have hx : x ∈ ls := hp.mem_iff.2 List.mem_cons_self
    obtain ⟨-, w, e, p⟩ := accessL (h.perm hp (.refl _)).consL (h.perm hp (.refl _)).tied.tailL eL
    rcases h.probeR r with ⟨eR, hnr⟩ | ⟨y, rs1, hq, hr, eR⟩
    · refine ⟨false, m, ls, rs, ?_, .inl ⟨rfl, .inr (noR_groups.2 hnr), hsame⟩, h, rfl⟩
      simp only [pair, e, eR]
    · have hy : y ∈ rs := hq.mem_iff.2 List.mem_cons_self
      have hit := hit_groups (ls := ls) hy hr
      have tl : TakeL (groups ls rs) l (some (x.l, x.own)) (groups ls' rs) := .inr ⟨_, rfl, hl, hp.map _, .refl _⟩
      have hk : (m.hb.hl l, x.id) = key m.hb x := by simp [key, m.hb.hl_congr _ _ hl]
      have hf := h.tied.fresh x hx
      have hpl : (w ⟨x.l, m.hb.hr r, y.id, x.id⟩).entries.Perm
          ((⟨x.l, x.id, y.r, y.id, y.id⟩ :: ls').map (toL m.hb)) := by
        have := p ⟨x.l, m.hb.hr r, y.id, x.id⟩
        rw [List.map_cons, toL, m.hb.hr_congr _ _ hr]
        exact this
      -- nothing else matches
      have honly : ∀ a ∈ rs1, (a.r == r) = false := fun a ha => eq_false_of_ne_true' fun hc => by
        have := hs (y.id, y.r) (a.id, a.r) hit (hit_groups (hq.mem_iff.2 (List.mem_cons_of_mem _ ha)) hc)
        exact (h.perm (.refl _) hq).tied.tailR a ha (Prod.ext_iff.1 this).1.symm
      have hkeys : ∀ {rs : List (RRec R)}, (∀ a ∈ rs, (a.r == r) = false) →
          ∀ e ∈ rs.map (toR m.hb), equivalentKeyRight r e.2 = false := by
        intro rs hrs e he
        obtain ⟨a, ha, rfl⟩ := List.mem_map.1 he
        exact hrs a ha
      obtain ⟨z, hz, ho, hzr⟩ := h.tied.owner x hx
      by_cases hc : z.id = y.id
      · obtain rfl := h.tied.sameR hz hy hc
        have h1 := h.perm hp hq
        obtain ⟨w3, e3, p3⟩ := getMutR_id h1.consR h1.tied.tailR
        obtain ⟨w4, e4, p4⟩ := RawTable.getMut_some (h := m.hb.hr r) (p := equivalentKeyRight r)
          (t := w3 ⟨z.r, z.pairs.remove (key m.hb x), z.id⟩)
          (e := toR m.hb ⟨z.r, z.id, z.pairs.remove (key m.hb x)⟩) (p3 _) (m.hb.hr_congr _ _ hr) hr (hkeys honly)
        refine ⟨true, { m with left := w ⟨x.l, m.hb.hr r, z.id, x.id⟩
                               right := w4 ⟨z.r, (z.pairs.remove (key m.hb x)).insert (key m.hb x), z.id⟩ },
          ⟨x.l, x.id, z.r, z.id, z.id⟩ :: ls', ⟨z.r, z.id, (z.pairs.remove (key m.hb x)).insert (key m.hb x)⟩ :: rs1,
          ?_, .inr ⟨_, _, _, rfl, tl, hit, (hq.map fun (y : RRec R) => (y.id, y.r)).symm, .refl _⟩, ⟨hpl, p4 _, ?_⟩, rfl⟩
        · simp only [pair, e, eR, toL, toR, hk]
          simp only [show m.hb.hr x.r = m.hb.hr z.r by rw [hzr], hf, ← ho, e3, toR]
          simp only [toR] at e4
          simp only [e4]
        · have d1 := h1.tied.dropLeft ho (PairSet.remove_perm z.pairs (key m.hb x))
          exact d1.addLeft h1.tied.tailL (h1.tied.boundL x List.mem_cons_self) (Nat.le_refl _)
            (PairSet.insert_perm (d1.new_not_mem h1.tied.tailL List.mem_cons_self _))
      · have hzm : z ∈ rs1 := by
          rcases List.mem_cons.1 (hq.mem_iff.1 hz) with rfl | hm
          · exact absurd rfl hc
          · exact hm
        obtain ⟨rs2, hq2⟩ := perm_cons_of_mem hzm
        have hrs := hq.trans (hq2.cons y)
        have h1 := h.perm hp hrs
        have hw := h1.tied.perm (.refl _) (.swap z y rs2)
        obtain ⟨w3, e3, p3⟩ := getMutR_id (hb := m.hb) (y := z) (rs := y :: rs2) (h1.right.trans (.swap _ _ _)) hw.tailR
        have hn : ∀ a ∈ (⟨z.r, z.id, z.pairs.remove (key m.hb x)⟩ : RRec R) :: rs2, (a.r == r) = false := by
          intro a ha
          rcases List.mem_cons.1 ha with rfl | ha
          · exact honly z hzm
          · exact honly a (hq2.mem_iff.2 (List.mem_cons_of_mem _ ha))
        obtain ⟨w4, e4, p4⟩ := RawTable.getMut_some (h := m.hb.hr r) (p := equivalentKeyRight r)
          (t := w3 ⟨z.r, z.pairs.remove (key m.hb x), z.id⟩)
          (e := toR m.hb y) (es := (⟨z.r, z.id, z.pairs.remove (key m.hb x)⟩ :: rs2).map (toR m.hb))
          ((p3 _).trans (.swap _ _ _)) (m.hb.hr_congr _ _ hr) hr (hkeys hn)
        refine ⟨true, { m with left := w ⟨x.l, m.hb.hr r, y.id, x.id⟩
                               right := w4 ⟨y.r, y.pairs.insert (key m.hb x), y.id⟩ },
          ⟨x.l, x.id, y.r, y.id, y.id⟩ :: ls',
          ⟨y.r, y.id, y.pairs.insert (key m.hb x)⟩ :: ⟨z.r, z.id, z.pairs.remove (key m.hb x)⟩ :: rs2,
          ?_, .inr ⟨_, _, _, rfl, tl, hit, (hrs.map fun (y : RRec R) => (y.id, y.r)).symm, .refl _⟩, ⟨hpl, p4 _, ?_⟩, rfl⟩
        · simp only [pair, e, eR, toL, toR, hk]
          simp only [show m.hb.hr x.r = m.hb.hr z.r by rw [hzr], hf, ← ho, e3, toR]
          simp only [toR] at e4
          simp only [e4]
        · have d1 := hw.dropLeft ho (PairSet.remove_perm z.pairs (key m.hb x))
          have d2 := d1.perm (.refl _) (.swap y _ rs2)
          exact d2.addLeft h1.tied.tailL (h1.tied.boundL x List.mem_cons_self) (Nat.le_refl _)
            (PairSet.insert_perm (by
              rw [h1.tied.mem_pairs List.mem_cons_self List.mem_cons_self, ← ho]
              exact hc))

/-! ### Swapping -/

/-- a right item without left items has an empty set -/
theorem Tied.noPairs {hb : BuildHasher L R} {lc rc : Nat} (h : Tied hb lc rc ls rs) (hy : y ∈ rs)
    (hn : ∀ x ∈ (groups ls rs).lefts, x.2 ≠ y.id) : y.pairs.entries = [] := by
  have hm : mine ls y.id = [] := by
    rw [mine, List.filter_eq_nil_iff]
    intro a ha hc
    exact hn (a.l, a.own) (List.mem_map.2 ⟨a, ha, rfl⟩) (by simpa using hc)
  have := h.pairs y hy
  rw [hm] at this
  exact List.perm_nil.1 this

theorem swapRight_weak (h : Linked m ls rs) (old new : R) (hs : Sane (groups ls rs) (.swapRight old new)) :
    ∃ m' ls' rs', m.swapRight old new = .ok m' ∧ GroupWeak.Step (groups ls rs) (.swapRight old new) .unit (groups ls' rs') ∧
      Linked m' ls' rs' ∧ m'.hb = m.hb := by
  rcases h.probeR old with ⟨eR, hnr⟩ | ⟨y, rs1, hq, hr, eR⟩
  · obtain ⟨o, m', ls', rs', e, s, h', hb⟩ := insertRight_weak h new
    refine ⟨m', ls', rs', ?_, ⟨rfl, .inl ⟨noR_groups.2 hnr, o, s⟩⟩, h', hb⟩
    simp only [swapRight, getMut_of_get_none eR, e, bind, Except.bind, pure, Except.pure]
  · have hy : y ∈ rs := hq.mem_iff.2 List.mem_cons_self
    have hnil := h.tied.noPairs hy (hs _ (hit_groups hy hr))
    have h1 := h.perm (.refl _) hq
    obtain ⟨-, w, e, p⟩ := accessR h1.consR h1.tied.tailR eR
    have hcol : y.pairs.collect.entries = [] := List.perm_nil.1 (by have := PairSet.collect_perm y.pairs; rwa [hnil] at this)
    have hm : mine ls y.id = [] := by
      have := h.tied.pairs y hy
      rw [hnil] at this
      simpa using this.symm
    have t1 : Tied m.hb m.leftCounter m.rightCounter ls (⟨y.r, y.id, y.pairs.clear⟩ :: rs1) :=
      { idsL := h1.tied.idsL
        idsR := List.pairwise_cons.2 ⟨fun a ha => (h1.tied.tailR a ha).symm, (List.pairwise_cons.1 h1.tied.idsR).2⟩
        boundL := h1.tied.boundL
        boundR := fun a ha => by
          rcases List.mem_cons.1 ha with rfl | ha
          · exact h.tied.boundR y hy
          · exact h1.tied.boundR a (List.mem_cons_of_mem _ ha)
        owner := fun a ha => by
          obtain ⟨z, hz, e1⟩ := h1.tied.owner a ha
          rcases List.mem_cons.1 hz with rfl | hz
          · exact ⟨_, List.mem_cons_self, e1⟩
          · exact ⟨z, List.mem_cons_of_mem _ hz, e1⟩
        pairs := fun a ha => by
          rcases List.mem_cons.1 ha with rfl | ha
          · simp only [RawTable.clear_entries, hm]; exact .refl _
          · exact h1.tied.pairs a (List.mem_cons_of_mem _ ha)
        fresh := h1.tied.fresh }
    refine ⟨{ m with right := (w ⟨y.r, y.pairs.clear, y.id⟩).insert (m.hb.hr new) ⟨new, y.pairs.collect, m.rightCounter⟩ (·.hashWith m.hb.hr)
                     rightCounter := m.rightCounter + 1 }, ls,
      ⟨new, m.rightCounter, y.pairs.collect⟩ :: ⟨y.r, y.id, y.pairs.clear⟩ :: rs1, ?_,
      ⟨rfl, .inr ⟨fun hn => ?_, m.rightCounter, newLabel h, ?_, .refl _⟩⟩, ⟨h.left, ?_, t1.addRight hcol⟩, rfl⟩
    · simp only [swapRight, e, toR, hcol, rehashAll, bind, Except.bind, pure, Except.pure]
    · rw [noR_groups.1 hn y hy] at hr; cases hr
    · exact ((hq.map fun (y : RRec R) => (y.id, y.r)).symm).cons _
    · exact (RawTable.insert_perm _ _ _ (hashesR (rs := ⟨y.r, y.id, y.pairs.clear⟩ :: rs1) (p _))).trans ((p _).cons _)

theorem swapRightRemove_weak (h : Linked m ls rs) (old new : R) (hs : Sane (groups ls rs) (.swapRightRemove old new)) :
    ∃ o m' ls' rs', m.swapRightRemove old new = .ok (o, m') ∧
      GroupWeak.Step (groups ls rs) (.swapRightRemove old new) (.right o) (groups ls' rs') ∧ Linked m' ls' rs' ∧ m'.hb = m.hb := by
  rcases h.probeR old with ⟨eR, hnr⟩ | ⟨y, rs1, hq, hr, eR⟩
  · obtain ⟨o, m', ls', rs', e, s, h', hb⟩ := insertRight_weak h new
    refine ⟨none, m', ls', rs', ?_, .inl ⟨noR_groups.2 hnr, rfl, o, s⟩, h', hb⟩
    simp only [swapRightRemove, removeEntry_of_get_none eR, e, bind, Except.bind, pure, Except.pure]
  · have hy : y ∈ rs := hq.mem_iff.2 List.mem_cons_self
    have hno := hs _ (hit_groups hy hr)
    have hnil := h.tied.noPairs hy hno
    have h1 := h.perm (.refl _) hq
    obtain ⟨⟨t, e, p⟩, -⟩ := accessR h1.consR h1.tied.tailR eR
    have hcol : y.pairs.collect.entries = [] := List.perm_nil.1 (by have := PairSet.collect_perm y.pairs; rwa [hnil] at this)
    have hd := h1.tied.dropRight
    have hls : (ls.filter fun x => !(x.own == y.id)) = ls := by
      rw [List.filter_eq_self]
      intro a ha
      simpa using hno (a.l, a.own) (List.mem_map.2 ⟨a, ha, rfl⟩)
    rw [hls] at hd
    refine ⟨some y.r, { m with right := t.insert (m.hb.hr new) ⟨new, y.pairs.collect, m.rightCounter⟩ (·.hashWith m.hb.hr)
                               rightCounter := m.rightCounter + 1 }, ls,
      ⟨new, m.rightCounter, y.pairs.collect⟩ :: rs1, ?_,
      .inr ⟨(y.id, y.r), rs1.map fun (y : RRec R) => (y.id, y.r), m.rightCounter, hr, hq.map (fun (y : RRec R) => (y.id, y.r)), rfl, newLabel h, .refl _, .refl _⟩,
      ⟨h.left, ?_, hd.addRight hcol⟩, rfl⟩
    · simp only [swapRightRemove, e, toR, hcol, rehashAll, bind, Except.bind, pure, Except.pure]
    · exact (RawTable.insert_perm _ _ _ (hashesR p)).trans (p.cons _)

/-! ### Questions -/

theorem arePaired_weak (h : Linked m ls rs) (l : L) (r : R) :
    (m.arePaired l r = true ∧ ∃ y rs', rs.Perm (y :: rs') ∧ Paired (groups ls rs) l r (y.id, y.r) ∧
      m.right.get (m.hb.hr r) (equivalentKeyRight r) = some (toR m.hb y).2) ∨
    (m.arePaired l r = false ∧ Unpaired (groups ls rs) l r) := by
  rcases h.probeL l with ⟨eL, hn⟩ | ⟨x, ls', hp, hl, eL⟩
  · exact .inr ⟨by simp only [arePaired, eL], .inl (noL_groups.2 hn)⟩
  · rcases h.probeR r with ⟨eR, hnr⟩ | ⟨y, rs1, hq, hr, eR⟩
    · exact .inr ⟨by simp only [arePaired, eL, eR], .inr (.inl (noR_groups.2 hnr))⟩
    · have hx : x ∈ ls := hp.mem_iff.2 List.mem_cons_self
      have hy : y ∈ rs := hq.mem_iff.2 List.mem_cons_self
      have hk : (m.hb.hl l, x.id) = key m.hb x := by simp [key, m.hb.hl_congr _ _ hl]
      have hxm : (x.l, x.own) ∈ (groups ls rs).lefts := List.mem_map.2 ⟨x, hx, rfl⟩
      by_cases hc : x.own = y.id
      · refine .inl ⟨?_, y, rs1, hq, ⟨hit_groups hy hr, x.l, by rw [← hc]; exact hxm, hl⟩, eR⟩
        obtain ⟨z, hz, e1, e2⟩ := h.tied.owner x hx
        have hxr : y.r = x.r := by rw [← e2, h.tied.sameR hz hy (by rw [e1, hc])]
        have hcon : PairSet.contains y.pairs (key m.hb x) = true := PairSet.contains_iff.2 ((h.tied.mem_pairs hx hy).2 hc)
        simp only [arePaired, eL, eR, toL, toR, hk, hcon, ← hxr, m.hb.hr_congr _ _ hr]
        simp
      · refine .inr ⟨?_, .inr (.inr ⟨_, _, hxm, hl, hit_groups hy hr, hc⟩)⟩
        have hcon : PairSet.contains y.pairs (key m.hb x) = false :=
          eq_false_of_ne_true' fun h1 => hc ((h.tied.mem_pairs hx hy).1 (PairSet.contains_iff.1 h1))
        simp only [arePaired, eL, eR, toL, toR, hk, hcon]
        simp

theorem getRight_weak (h : Linked m ls rs) (l : L) :
    GroupWeak.Step (groups ls rs) (.getRight l) (.right (m.getRight l)) (groups ls rs) := by
  refine ⟨same_groups (.refl _) (.refl _), ?_⟩
  rcases h.probeL l with ⟨eL, hn⟩ | ⟨x, ls', hp, hl, eL⟩
  · have eL' : m.left.get (m.hb.hl l) (fun x => x.value == l) = none := eL
    exact .inl ⟨by simp only [getRight, getRightBy, eL'], noL_groups.2 hn⟩
  · have hx : x ∈ ls := hp.mem_iff.2 List.mem_cons_self
    obtain ⟨y, rs', hq, ho, hy⟩ := h.tied.ownerOf hx
    have h1 := h.perm (.refl _) hq
    have e2 := getR_id h1.consR h1.tied.tailR
    have eL' : m.left.get (m.hb.hl l) (fun x => x.value == l) = some (toL m.hb x).2 := eL
    refine .inr ⟨(x.l, x.own), (y.id, y.r), ?_, List.mem_map.2 ⟨x, hx, rfl⟩, hl,
      List.mem_map.2 ⟨y, hq.mem_iff.2 List.mem_cons_self, rfl⟩, ho⟩
    have hf := h.tied.fresh x hx
    simp only [getRight, getRightBy, eL', toL, hf, ← ho, ← hy, e2]
    rfl

theorem isRightPaired_weak (h : Linked m ls rs) (r : R) :
    GroupWeak.Step (groups ls rs) (.isRightPaired r) (.bool (m.isRightPaired r)) (groups ls rs) := by
  refine ⟨same_groups (.refl _) (.refl _), ?_⟩
  rcases h.probeR r with ⟨eR, hnr⟩ | ⟨y, rs1, hq, hr, eR⟩
  · exact .inl ⟨by simp only [isRightPaired, eR], noR_groups.2 hnr⟩
  · have hy : y ∈ rs := hq.mem_iff.2 List.mem_cons_self
    refine .inr ⟨_, hit_groups hy hr, congrArg _ ?_⟩
    simp only [isRightPaired, eR]
    have hp := h.tied.pairs y hy
    rw [Bool.eq_iff_iff, List.any_eq_true]
    constructor
    · intro hne
      cases hm : mine ls y.id with
      | nil =>
        rw [hm] at hp
        simp [toR, PairSet.isEmpty, List.perm_nil.1 hp] at hne
      | cons a as =>
        have ha : a ∈ mine ls y.id := by rw [hm]; exact List.mem_cons_self
        have ha := List.mem_filter.1 ha
        exact ⟨(a.l, a.own), List.mem_map.2 ⟨a, ha.1, rfl⟩, ha.2⟩
    · rintro ⟨p, hpm, he⟩
      obtain ⟨a, ha, rfl⟩ := List.mem_map.1 hpm
      have hk := (h.tied.mem_pairs ha hy).2 (by simpa using he)
      cases hc : y.pairs.entries with
      | nil => rw [hc] at hk; cases hk
      | cons b bs => simp [toR, PairSet.isEmpty, hc]

theorem containsLeft_weak (h : Linked m ls rs) (l : L) : m.containsLeft l = (groups ls rs).lefts.any (·.1 == l) := by
  rw [containsLeft]
  rcases h.probeL l with ⟨e, hn⟩ | ⟨x, ls', hp, hl, e⟩ <;> rw [e]
  · symm; simpa [groups] using hn
  · symm; simp only [Option.isSome_some, List.any_eq_true]
    exact ⟨_, List.mem_map.2 ⟨x, hp.mem_iff.2 List.mem_cons_self, rfl⟩, hl⟩

theorem containsRight_weak (h : Linked m ls rs) (r : R) : m.containsRight r = (groups ls rs).rights.any (·.2 == r) := by
  rw [containsRight]
  rcases h.probeR r with ⟨e, hn⟩ | ⟨x, ls', hp, hl, e⟩ <;> rw [e]
  · symm; simpa [groups] using hn
  · symm; simp only [Option.isSome_some, List.any_eq_true]
    exact ⟨_, List.mem_map.2 ⟨x, hp.mem_iff.2 List.mem_cons_self, rfl⟩, hl⟩

theorem lenLeft_weak (h : Linked m ls rs) : m.lenLeft = (groups ls rs).lefts.length := by
  rw [lenLeft, RawTable.len, h.left.length_eq]; simp [groups]

theorem lenRight_weak (h : Linked m ls rs) : m.lenRight = (groups ls rs).rights.length := by
  rw [lenRight, RawTable.len, h.right.length_eq]; simp [groups]

theorem isEmpty_weak (h : Linked m ls rs) : m.isEmpty = (groups ls rs).rights.isEmpty := by
  rw [isEmpty, lenLeft_weak h, lenRight_weak h]
  cases rs with
  | nil =>
    cases ls with
    | nil => rfl
    | cons x ls => obtain ⟨y, hy, -⟩ := h.tied.owner x List.mem_cons_self; cases hy
  | cons y rs => simp [groups]

theorem clear_weak : Linked m.clear [] [] where
  left := by simp [clear, RawTable.clear_entries]
  right := by simp [clear, RawTable.clear_entries]
  tied := ⟨by simp, by simp, by simp, by simp, by simp, by simp, by simp⟩

theorem withCapacity_weak (n : Nat) (hb : BuildHasher L R) : Linked (withCapacityAndHasher n hb) [] [] where
  left := by simp [withCapacityAndHasher, RawTable.withCapacity_entries]
  right := by simp [withCapacityAndHasher, RawTable.withCapacity_entries]
  tied := ⟨by simp, by simp, by simp, by simp, by simp, by simp, by simp⟩

/-! ### `extend` -/

theorem extendOpt_weak (h : Linked m ls rs) (xs : List (Option L × R)) (hs : SaneAll (groups ls rs) xs) :
    ∃ m' ls' rs', m.extendOpt xs = .ok m' ∧ InsertAll (groups ls rs) xs (groups ls' rs') ∧ Linked m' ls' rs' ∧ m'.hb = m.hb := by
  induction xs generalizing m ls rs with
  | nil => exact ⟨m, ls, rs, rfl, same_groups (.refl _) (.refl _), h, rfl⟩
  | cons p xs ih =>
    obtain ⟨_ | l, r⟩ := p
    · obtain ⟨o, m1, ls1, rs1, e, s, h1, hb1⟩ := insertRight_weak h r
      obtain ⟨m2, ls2, rs2, e2, s2, h2, hb2⟩ := ih h1 (hs _ _ s)
      exact ⟨m2, ls2, rs2, by simp only [extendOpt, e, e2, bind, Except.bind], ⟨o, _, s, s2⟩, h2, hb2.trans hb1⟩
    · obtain ⟨m1, ls1, rs1, e, s, h1, hb1⟩ := insert_weak h l r hs.1
      obtain ⟨m2, ls2, rs2, e2, s2, h2, hb2⟩ := ih h1 (hs.2 _ s)
      exact ⟨m2, ls2, rs2, by simp only [extendOpt, e, e2, bind, Except.bind], ⟨_, s, s2⟩, h2, hb2.trans hb1⟩

/-! ### `clone` -/

theorem clone_weak (h : Linked m ls rs) {cl : L → L} {cr : R → R} (hl : ∀ x, (cl x == x) = true)
    (hr : ∀ x, (cr x == x) = true) :
    Linked (m.clone cl cr) (ls.map fun x => { x with l := cl x.l, r := cr x.r }) (rs.map fun y => { y with r := cr y.r }) := by
  have hmine : ∀ i, mine (ls.map fun x => { x with l := cl x.l, r := cr x.r }) i =
      (mine ls i).map fun x => { x with l := cl x.l, r := cr x.r } := fun i => by
    rw [mine, mine, List.filter_map]; rfl
  refine ⟨?_, ?_, ?_, ?_, ?_, ?_, ?_, ?_, ?_⟩
  · refine (h.left.map _).trans (.of_eq ?_)
    rw [List.map_map, List.map_map]
    refine List.map_congr_left fun x _ => ?_
    simp only [Function.comp, toL, LeftItem.clone, clone, m.hb.hl_congr _ _ (hl x.l), m.hb.hr_congr _ _ (hr x.r)]
  · refine (h.right.map _).trans (.of_eq ?_)
    rw [List.map_map, List.map_map]
    refine List.map_congr_left fun y _ => ?_
    simp only [Function.comp, toR, RightItem.clone, clone, m.hb.hr_congr _ _ (hr y.r)]
  · rw [List.pairwise_map]; exact h.tied.idsL
  · rw [List.pairwise_map]; exact h.tied.idsR
  · intro x hx
    obtain ⟨a, ha, rfl⟩ := List.mem_map.1 hx
    exact h.tied.boundL a ha
  · intro y hy
    obtain ⟨a, ha, rfl⟩ := List.mem_map.1 hy
    exact h.tied.boundR a ha
  · intro x hx
    obtain ⟨a, ha, rfl⟩ := List.mem_map.1 hx
    obtain ⟨y, hy, e1, e2⟩ := h.tied.owner a ha
    exact ⟨_, List.mem_map_of_mem hy, e1, by simp [e2]⟩
  · intro y hy
    obtain ⟨a, ha, rfl⟩ := List.mem_map.1 hy
    refine (h.tied.pairs a ha).trans (.of_eq ?_)
    rw [hmine, List.map_map]
    refine List.map_congr_left fun x _ => ?_
    simp only [Function.comp, key, clone, m.hb.hl_congr _ _ (hl x.l)]
  · intro x hx
    obtain ⟨a, ha, rfl⟩ := List.mem_map.1 hx
    exact h.tied.fresh a ha

end Verif.GroupMap
