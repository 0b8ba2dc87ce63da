import Verif.RawLemmas
import Verif.ListLemmas
import Verif.CycleMap.Rep
import Verif.GroupMap.Spec
/-! Representation invariant of `GroupMap`. -/
set_option linter.unusedSectionVars false
namespace Verif.GroupMap
open GroupSpec

theorem eq_false_of_ne_true' {b : Bool} (h : ¬ b = true) : b = false := by simpa using h

theorem beq_false_of_left {T : Type} [BEq T] [EquivBEq T] {a b c : T} (h : (a == b) = true) (h2 : (b == c) = false) :
    (a == c) = false := by
  rw [BEq.congr_left h]; exact h2

namespace PairSet
variable [RawImpl] [LawfulRaw]

theorem new_entries (n : Nat) : (PairSet.new n).entries = [] := RawTable.withCapacity_entries n

theorem contains_iff {s : PairSet} {p} : s.contains p = true ↔ p ∈ s.entries := by
  simp [contains]

theorem insert_perm {s : PairSet} {p} (h : p ∉ s.entries) : (s.insert p).entries.Perm (p :: s.entries) := by
  unfold PairSet.insert
  rw [if_neg (by rw [contains_iff]; exact h)]
  exact LawfulRaw.touch_perm _ _

theorem insert_of_mem {s : PairSet} {p} (h : p ∈ s.entries) : s.insert p = s := by
  unfold PairSet.insert
  rw [if_pos (contains_iff.2 h)]

theorem remove_perm (s : PairSet) (p) : (s.remove p).entries.Perm (s.entries.erase p) := by
  unfold PairSet.remove
  split
  · exact LawfulRaw.touch_perm _ _
  · next h => rw [contains_iff] at h; rw [List.erase_of_not_mem h]

theorem collect_perm (s : PairSet) : s.collect.entries.Perm s.entries := LawfulRaw.touch_perm _ _

end PairSet

/-- a left item, its id, the right item it belongs to and that item's id (`own`), and the stored right id
(`rid`, the same as `own` in a coherent map) -/
structure LRec (L R : Type) where
  l : L
  id : Nat
  r : R
  own : Nat
  rid : Nat

/-- a right item, its id, and its set of pairs -/
structure RRec (R : Type) where
  r : R
  id : Nat
  pairs : PairSet

variable {L R : Type} [BEq L] [BEq R]

/-- how a right item refers to a left item -/
def key (hb : BuildHasher L R) (x : LRec L R) : UInt64 × Nat := (hb.hl x.l, x.id)

def toL (hb : BuildHasher L R) (x : LRec L R) : UInt64 × LeftItem L := (hb.hl x.l, ⟨x.l, hb.hr x.r, x.rid, x.id⟩)
def toR (hb : BuildHasher L R) (y : RRec R) : UInt64 × RightItem R := (hb.hr y.r, ⟨y.r, y.pairs, y.id⟩)

theorem hashesL {hb : BuildHasher L R} {t : RawTable (LeftItem L)} {ls : List (LRec L R)}
    (h : t.entries.Perm (ls.map (toL hb))) : ∀ e ∈ t.entries, e.2.hashWith hb.hl = e.1 := by
  intro e he
  obtain ⟨p, -, rfl⟩ := List.mem_map.1 (h.mem_iff.1 he)
  rfl

theorem hashesR {hb : BuildHasher L R} {t : RawTable (RightItem R)} {rs : List (RRec R)}
    (h : t.entries.Perm (rs.map (toR hb))) : ∀ e ∈ t.entries, e.2.hashWith hb.hr = e.1 := by
  intro e he
  obtain ⟨p, -, rfl⟩ := List.mem_map.1 (h.mem_iff.1 he)
  rfl

def ApartL (a b : LRec L R) : Prop := a.id ≠ b.id ∧ (a.l == b.l) = false
def ApartR (a b : RRec R) : Prop := a.id ≠ b.id ∧ (a.r == b.r) = false

/-- the left items of the right item with this id -/
def mine (ls : List (LRec L R)) (i : Nat) : List (LRec L R) := ls.filter (·.own == i)

structure WF (hb : BuildHasher L R) (lc rc : Nat) (ls : List (LRec L R)) (rs : List (RRec R)) : Prop where
  apartL : ls.Pairwise ApartL
  apartR : rs.Pairwise ApartR
  boundL : ∀ x ∈ ls, x.id < lc
  boundR : ∀ y ∈ rs, y.id < rc
  owner : ∀ x ∈ ls, ∃ y ∈ rs, y.id = x.own ∧ y.r = x.r
  pairs : ∀ y ∈ rs, y.pairs.entries.Perm ((mine ls y.id).map (key hb))

structure Rep (m : GroupMap L R) (ls : List (LRec L R)) (rs : List (RRec R)) : Prop where
  left : m.left.entries.Perm (ls.map (toL m.hb))
  right : m.right.entries.Perm (rs.map (toR m.hb))
  wf : WF m.hb m.leftCounter m.rightCounter ls rs

/-- every stored right id is up to date -/
def Fresh (ls : List (LRec L R)) : Prop := ∀ x ∈ ls, x.rid = x.own

/-- the contents that the records stand for -/
structure Abs (ls : List (LRec L R)) (rs : List (RRec R)) (c : Contents L R) : Prop where
  rights : c.rights.Perm (rs.map (·.r))
  pairs : c.pairs.Perm (ls.map fun x => (x.l, x.r))

/-- every stored right id is up to date, if `G` holds -/
def FreshIf (G : Prop) (ls : List (LRec L R)) : Prop := G → Fresh ls

/-- `m` has contents `c`; the right ids stored in the left items are up to date if `G` holds -/
def ReprG (G : Prop) (m : GroupMap L R) (c : Contents L R) : Prop := ∃ ls rs, Rep m ls rs ∧ FreshIf G ls ∧ Abs ls rs c

/-- `m` is a coherent map with contents `c` -/
abbrev Repr (m : GroupMap L R) (c : Contents L R) : Prop := ReprG True m c

/-- `m` has contents `c`, but some left items may hold the id of another right item than theirs -/
abbrev Stale (m : GroupMap L R) (c : Contents L R) : Prop := ReprG False m c

variable [EquivBEq L] [EquivBEq R]

theorem ApartL.symm {a b : LRec L R} (h : ApartL a b) : ApartL b a := ⟨h.1.symm, by rw [BEq.comm]; exact h.2⟩
theorem ApartR.symm {a b : RRec R} (h : ApartR a b) : ApartR b a := ⟨h.1.symm, by rw [BEq.comm]; exact h.2⟩

section
variable {hb : BuildHasher L R} {lc rc : Nat} {ls ls' : List (LRec L R)} {rs rs' : List (RRec R)} {x : LRec L R}
  {y : RRec R}

theorem WF.perm (h : WF hb lc rc ls rs) (hl : ls.Perm ls') (hr : rs.Perm rs') : WF hb lc rc ls' rs' where
  apartL := (hl.pairwise_iff (fun h => h.symm)).1 h.apartL
  apartR := (hr.pairwise_iff (fun h => h.symm)).1 h.apartR
  boundL := fun x hm => h.boundL x (hl.mem_iff.2 hm)
  boundR := fun y hm => h.boundR y (hr.mem_iff.2 hm)
  owner := fun x hm => by
    obtain ⟨y, hy, e⟩ := h.owner x (hl.mem_iff.2 hm)
    exact ⟨y, hr.mem_iff.1 hy, e⟩
  pairs := fun y hm => (h.pairs y (hr.mem_iff.2 hm)).trans ((hl.filter _).map _)

theorem WF.tailL (h : WF hb lc rc (x :: ls) rs) : ∀ a ∈ ls, ApartL x a := (List.pairwise_cons.1 h.apartL).1
theorem WF.tailR (h : WF hb lc rc ls (y :: rs)) : ∀ a ∈ rs, ApartR y a := (List.pairwise_cons.1 h.apartR).1

theorem WF.mono (h : WF hb lc rc ls rs) {lc' rc'} (hl : lc ≤ lc') (hr : rc ≤ rc') : WF hb lc' rc' ls rs :=
  { h with boundL := fun x hx => Nat.lt_of_lt_of_le (h.boundL x hx) hl
           boundR := fun y hy => Nat.lt_of_lt_of_le (h.boundR y hy) hr }

theorem WF.casesL (h : WF hb lc rc ls rs) (l : L) :
    (∀ x ∈ ls, (l == x.l) = false) ∨
    ∃ x ls', ls.Perm (x :: ls') ∧ (l == x.l) = true ∧ ∀ a ∈ ls', (l == a.l) = false := by
  by_cases hx : ∃ x ∈ ls, (l == x.l) = true
  · obtain ⟨x, hx, hl⟩ := hx
    obtain ⟨ls', hp⟩ := perm_cons_of_mem hx
    have hw := h.perm hp (.refl _)
    exact .inr ⟨x, ls', hp, hl, fun a ha => beq_false_of_left hl (hw.tailL a ha).2⟩
  · exact .inl fun x hm => eq_false_of_ne_true' fun hc => hx ⟨x, hm, hc⟩

theorem WF.casesR (h : WF hb lc rc ls rs) (r : R) :
    (∀ y ∈ rs, (r == y.r) = false) ∨
    ∃ y rs', rs.Perm (y :: rs') ∧ (r == y.r) = true ∧ ∀ a ∈ rs', (r == a.r) = false := by
  by_cases hx : ∃ y ∈ rs, (r == y.r) = true
  · obtain ⟨y, hy, hr⟩ := hx
    obtain ⟨rs', hp⟩ := perm_cons_of_mem hy
    have hw := h.perm (.refl _) hp
    exact .inr ⟨y, rs', hp, hr, fun a ha => beq_false_of_left hr (hw.tailR a ha).2⟩
  · exact .inl fun y hm => eq_false_of_ne_true' fun hc => hx ⟨y, hm, hc⟩

theorem WF.ownerOf (h : WF hb lc rc ls rs) (hx : x ∈ ls) :
    ∃ y rs', rs.Perm (y :: rs') ∧ y.id = x.own ∧ y.r = x.r ∧ ∀ a ∈ rs', a.id ≠ x.own := by
  obtain ⟨y, hy, e1, e2⟩ := h.owner x hx
  obtain ⟨rs', hp⟩ := perm_cons_of_mem hy
  have hw := h.perm (.refl _) hp
  exact ⟨y, rs', hp, e1, e2, fun a ha => by rw [← e1]; exact (hw.tailR a ha).1.symm⟩

theorem WF.sameL (h : WF hb lc rc ls rs) {a b : LRec L R} (ha : a ∈ ls) (hb' : b ∈ ls) (he : a.id = b.id) : a = b := by
  obtain ⟨ls', hp⟩ := perm_cons_of_mem ha
  rcases List.mem_cons.1 (hp.mem_iff.1 hb') with e | hm
  · exact e.symm
  · exact absurd he ((h.perm hp (.refl _)).tailL b hm).1

theorem WF.sameR (h : WF hb lc rc ls rs) {a b : RRec R} (ha : a ∈ rs) (hb' : b ∈ rs) (he : a.id = b.id) : a = b := by
  obtain ⟨rs', hp⟩ := perm_cons_of_mem ha
  rcases List.mem_cons.1 (hp.mem_iff.1 hb') with e | hm
  · exact e.symm
  · exact absurd he ((h.perm (.refl _) hp).tailR b hm).1

/-- a right item refers to exactly its own left items -/
theorem WF.mem_pairs (h : WF hb lc rc ls rs) (hx : x ∈ ls) (hy : y ∈ rs) : key hb x ∈ y.pairs.entries ↔ x.own = y.id := by
  rw [(h.pairs y hy).mem_iff]
  constructor
  · intro hm
    obtain ⟨a, ha, e⟩ := List.mem_map.1 hm
    have ha2 := List.mem_filter.1 ha
    have : a = x := h.sameL ha2.1 hx (by simpa [key] using (Prod.ext_iff.1 e).2)
    subst this
    simpa using ha2.2
  · intro e
    exact List.mem_map_of_mem (List.mem_filter.2 ⟨hx, by simp [e]⟩)

theorem WF.new_not_mem (h : WF hb lc rc ls rs) {i : Nat} (hi : ∀ a ∈ ls, a.id ≠ i) (hy : y ∈ rs) (k : UInt64) :
    (k, i) ∉ y.pairs.entries := by
  rw [(h.pairs y hy).mem_iff]
  intro hm
  obtain ⟨a, ha, e⟩ := List.mem_map.1 hm
  exact hi a (List.mem_filter.1 ha).1 (Prod.ext_iff.1 e).2

/-- belonging to `y` is the same as having an equal right item -/
theorem WF.own_iff (h : WF hb lc rc ls rs) {r : R} (hy : y ∈ rs) (hr : (r == y.r) = true) (hx : x ∈ ls) :
    (x.own == y.id) = (r == x.r) := by
  obtain ⟨z, hz, e1, e2⟩ := h.owner x hx
  rw [← e1, ← e2, Bool.eq_iff_iff]
  constructor
  · intro he
    rw [h.sameR hz hy (by simpa using he)]; exact hr
  · intro he
    by_cases hc : z.id = y.id
    · simpa using hc
    · obtain ⟨rs', hp⟩ := perm_cons_of_mem hy
      rcases List.mem_cons.1 (hp.mem_iff.1 hz) with e | hm
      · simp [e]
      · have := ((h.perm (.refl _) hp).tailR z hm).2
        rw [BEq.congr_left (BEq.symm hr)] at this
        rw [this] at he; cases he

omit [EquivBEq L] [EquivBEq R] in
theorem mine_nil (h : ∀ x ∈ ls, x.own ≠ y.id) : mine ls y.id = [] := by
  rw [mine, List.filter_eq_nil_iff]
  intro x hx; simpa using h x hx

/-! ### Elementary changes -/

/-- a new right item without left items -/
theorem WF.addRight (h : WF hb lc rc ls rs) {r : R} (hr : ∀ y ∈ rs, (r == y.r) = false) {s : PairSet}
    (hs : s.entries = []) : WF hb lc (rc + 1) ls (⟨r, rc, s⟩ :: rs) where
  apartL := h.apartL
  apartR := List.pairwise_cons.2 ⟨fun a ha => ⟨fun e => by have := h.boundR a ha; simp at e; omega, hr a ha⟩, h.apartR⟩
  boundL := h.boundL
  boundR := by
    intro y hy
    rcases List.mem_cons.1 hy with rfl | hy
    · simp
    · have := h.boundR y hy; omega
  owner := fun x hx => by
    obtain ⟨y, hy, e⟩ := h.owner x hx
    exact ⟨y, List.mem_cons_of_mem _ hy, e⟩
  pairs := by
    intro y hy
    rcases List.mem_cons.1 hy with rfl | hy
    · simp only [hs]
      rw [show mine ls rc = [] from ?_]; · simp
      rw [mine, List.filter_eq_nil_iff]
      intro x hx
      obtain ⟨z, hz, e, -⟩ := h.owner x hx
      have := h.boundR z hz
      simp; omega
    · exact h.pairs y hy

/-- a left item is added to the right item `y` -/
theorem WF.addLeft (h : WF hb lc rc ls (y :: rs)) {l : L} {i j lc' : Nat} (hl : ∀ x ∈ ls, (l == x.l) = false)
    (hi : ∀ x ∈ ls, x.id ≠ i) (hlt : i < lc') (hle : lc ≤ lc') {s : PairSet}
    (hs : s.entries.Perm ((hb.hl l, i) :: y.pairs.entries)) :
    WF hb lc' rc (⟨l, i, y.r, y.id, j⟩ :: ls) (⟨y.r, y.id, s⟩ :: rs) where
  apartL := List.pairwise_cons.2 ⟨fun a ha => ⟨(hi a ha).symm, hl a ha⟩, h.apartL⟩
  apartR := List.pairwise_cons.2 ⟨fun a ha => h.tailR a ha, (List.pairwise_cons.1 h.apartR).2⟩
  boundL := by
    intro x hx
    rcases List.mem_cons.1 hx with rfl | hx
    · exact hlt
    · exact Nat.lt_of_lt_of_le (h.boundL x hx) hle
  boundR := by
    intro a ha
    rcases List.mem_cons.1 ha with rfl | ha
    · exact h.boundR y List.mem_cons_self
    · exact h.boundR a (List.mem_cons_of_mem _ ha)
  owner := by
    intro x hx
    rcases List.mem_cons.1 hx with rfl | hx
    · exact ⟨_, List.mem_cons_self, rfl, rfl⟩
    · obtain ⟨z, hz, e⟩ := h.owner x hx
      rcases List.mem_cons.1 hz with rfl | hz
      · exact ⟨_, List.mem_cons_self, e⟩
      · exact ⟨z, List.mem_cons_of_mem _ hz, e⟩
  pairs := by
    intro a ha
    rcases List.mem_cons.1 ha with rfl | ha
    · refine hs.trans ?_
      rw [mine, List.filter_cons_of_pos (by simp), List.map_cons]
      exact (h.pairs y List.mem_cons_self).cons _
    · rw [mine, List.filter_cons_of_neg (by simpa using (h.tailR a ha).1)]
      exact h.pairs a (List.mem_cons_of_mem _ ha)

/-- a left item leaves its right item -/
theorem WF.dropLeft (h : WF hb lc rc (x :: ls) (y :: rs)) (ho : y.id = x.own) {s : PairSet}
    (hs : s.entries.Perm (y.pairs.entries.erase (key hb x))) : WF hb lc rc ls (⟨y.r, y.id, s⟩ :: rs) where
  apartL := (List.pairwise_cons.1 h.apartL).2
  apartR := List.pairwise_cons.2 ⟨fun a ha => h.tailR a ha, (List.pairwise_cons.1 h.apartR).2⟩
  boundL := fun a ha => h.boundL a (List.mem_cons_of_mem _ ha)
  boundR := by
    intro a ha
    rcases List.mem_cons.1 ha with rfl | ha
    · exact h.boundR y List.mem_cons_self
    · exact h.boundR a (List.mem_cons_of_mem _ ha)
  owner := by
    intro a ha
    obtain ⟨z, hz, e⟩ := h.owner a (List.mem_cons_of_mem _ ha)
    rcases List.mem_cons.1 hz with rfl | hz
    · exact ⟨_, List.mem_cons_self, e⟩
    · exact ⟨z, List.mem_cons_of_mem _ hz, e⟩
  pairs := by
    intro a ha
    rcases List.mem_cons.1 ha with rfl | ha
    · refine hs.trans ?_
      have := h.pairs y List.mem_cons_self
      rw [mine, List.filter_cons_of_pos (by simp [ho]), List.map_cons] at this
      refine (this.erase _).trans ?_
      rw [List.erase_cons_head]
      exact .refl _
    · have := h.pairs a (List.mem_cons_of_mem _ ha)
      rwa [mine, List.filter_cons_of_neg (by have := (h.tailR a ha).1; rw [← ho]; simpa using this)] at this

/-- a right item goes, with all its left items -/
theorem WF.dropRight (h : WF hb lc rc ls (y :: rs)) : WF hb lc rc (ls.filter fun x => !(x.own == y.id)) rs where
  apartL := h.apartL.filter _
  apartR := (List.pairwise_cons.1 h.apartR).2
  boundL := fun x hx => h.boundL x (List.mem_filter.1 hx).1
  boundR := fun a ha => h.boundR a (List.mem_cons_of_mem _ ha)
  owner := by
    intro x hx
    have hx := List.mem_filter.1 hx
    obtain ⟨z, hz, e⟩ := h.owner x hx.1
    rcases List.mem_cons.1 hz with rfl | hz
    · simp [e.1] at hx
    · exact ⟨z, hz, e⟩
  pairs := by
    intro a ha
    refine (h.pairs a (List.mem_cons_of_mem _ ha)).trans ?_
    rw [mine, mine, List.filter_filter]
    refine .of_eq (congrArg _ (List.filter_congr fun x _ => ?_))
    cases hc : x.own == a.id
    · rfl
    · have := (h.tailR a ha).1
      simp at hc
      simp [hc, Ne.symm this]

end

/-! ### Tables -/
section
variable [RawImpl] [LawfulRaw] {m : GroupMap L R} {ls ls' : List (LRec L R)} {rs rs' : List (RRec R)}

theorem Rep.perm (h : Rep m ls rs) (hl : ls.Perm ls') (hr : rs.Perm rs') : Rep m ls' rs' :=
  ⟨h.left.trans (hl.map _), h.right.trans (hr.map _), h.wf.perm hl hr⟩

theorem keysL {hb : BuildHasher L R} {l : L} (h : ∀ x ∈ ls, (l == x.l) = false) :
    ∀ e ∈ ls.map (toL hb), equivalentKeyLeft l e.2 = false := by
  intro e he
  obtain ⟨x, hx, rfl⟩ := List.mem_map.1 he
  exact BEq.symm_false (h x hx)

theorem keysR {hb : BuildHasher L R} {r : R} (h : ∀ x ∈ rs, (r == x.r) = false) :
    ∀ e ∈ rs.map (toR hb), equivalentKeyRight r e.2 = false := by
  intro e he
  obtain ⟨x, hx, rfl⟩ := List.mem_map.1 he
  exact BEq.symm_false (h x hx)

omit [EquivBEq L] [EquivBEq R] in
theorem idsL {hb : BuildHasher L R} {i : Nat} (h : ∀ x ∈ ls, x.id ≠ i) :
    ∀ e ∈ ls.map (toL hb), leftWithLeftId i e.2 = false := by
  intro e he
  obtain ⟨x, hx, rfl⟩ := List.mem_map.1 he
  simpa [leftWithLeftId, toL] using h x hx

omit [EquivBEq L] [EquivBEq R] in
theorem idsR {hb : BuildHasher L R} {i : Nat} (h : ∀ x ∈ rs, x.id ≠ i) :
    ∀ e ∈ rs.map (toR hb), rightWithRightId i e.2 = false := by
  intro e he
  obtain ⟨x, hx, rfl⟩ := List.mem_map.1 he
  simpa [rightWithRightId, toR] using h x hx

omit [EquivBEq L] [EquivBEq R] in
theorem pairsR {hb : BuildHasher L R} {p : UInt64 × Nat} (h : ∀ x ∈ rs, p ∉ x.pairs.entries) :
    ∀ e ∈ rs.map (toR hb), rightWithLeftPair p e.2 = false := by
  intro e he
  obtain ⟨x, hx, rfl⟩ := List.mem_map.1 he
  rw [rightWithLeftPair, Bool.eq_false_iff]
  exact fun hc => h x hx (PairSet.contains_iff.1 hc)

theorem Rep.noneL (h : Rep m ls rs) {P : LeftItem L → Bool} (hx : ∀ e ∈ ls.map (toL m.hb), P e.2 = false) :
    ∀ e ∈ m.left.entries, P e.2 = false := fun e he => hx e (h.left.mem_iff.1 he)

theorem Rep.noneR (h : Rep m ls rs) {P : RightItem R → Bool} (hx : ∀ e ∈ rs.map (toR m.hb), P e.2 = false) :
    ∀ e ∈ m.right.entries, P e.2 = false := fun e he => hx e (h.right.mem_iff.1 he)

end
end Verif.GroupMap
