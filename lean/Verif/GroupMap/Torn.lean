import Verif.GroupMap.Stale
/-!
Maps whose two tables disagree: `insert` of a pair that is there (C62) leaves a left item that no right item knows,
`retain_paired` (C74) leaves right items that refer to left items gone.
-/
set_option linter.unusedSectionVars false
set_option linter.unusedSimpArgs false
namespace Verif.GroupMap
open GroupSpec
open CycleSpec (split)

variable [RawImpl] [LawfulRaw] {L R : Type} [BEq L] [BEq R] [EquivBEq L] [EquivBEq R]
variable {m : GroupMap L R} {c : Contents L R} {ls os ds : List (LRec L R)} {rs : List (RRec R)} {y : RRec R}

/-- `ls`: the left items in order; `os`: those that no right item refers to; `ds`: those that are gone but are
still referred to -/
structure Torn (m : GroupMap L R) (ls os ds : List (LRec L R)) (rs : List (RRec R)) : Prop where
  left : m.left.entries.Perm ((ls ++ os).map (toL m.hb))
  right : m.right.entries.Perm (rs.map (toR m.hb))
  wf : WF m.hb m.leftCounter m.rightCounter (ls ++ ds) rs
  apart : (ls ++ os ++ ds).Pairwise ApartL
  boundL : ∀ x ∈ ls ++ os, x.id < m.leftCounter
  fresh : ∀ x ∈ ls ++ os, x.rid = x.own
  owner : ∀ x ∈ ls ++ os, ∃ y ∈ rs, y.id = x.own ∧ y.r = x.r

/-- right items with exactly the given left items -/
theorem WF.refill {hb : BuildHasher L R} {lc rc : Nat} {as bs : List (LRec L R)} (h : WF hb lc rc as rs)
    (ha : bs.Pairwise ApartL) (hlt : ∀ x ∈ bs, x.id < lc) (ho : ∀ x ∈ bs, ∃ y ∈ rs, y.id = x.own ∧ y.r = x.r) :
    WF hb lc rc bs (rs.map fun y => ⟨y.r, y.id, ⟨(mine bs y.id).map (key hb), 0⟩⟩) where
  apartL := ha
  apartR := by rw [List.pairwise_map]; exact h.apartR
  boundL := hlt
  boundR := by
    intro y hy
    obtain ⟨a, ha, rfl⟩ := List.mem_map.1 hy
    exact h.boundR a ha
  owner := by
    intro x hx
    obtain ⟨y, hy, e⟩ := ho x hx
    exact ⟨_, List.mem_map_of_mem hy, e⟩
  pairs := by
    intro y hy
    obtain ⟨a, ha, rfl⟩ := List.mem_map.1 hy
    exact .refl _

/-- the map as the right items see it -/
def seenR (m : GroupMap L R) (bs : List (LRec L R)) : GroupMap L R := { m with left := ⟨bs.map (toL m.hb), 0⟩ }

/-- the map as the left items see it -/
def seenL (m : GroupMap L R) (as : List (LRec L R)) (rs : List (RRec R)) : GroupMap L R :=
  { m with right := ⟨(rs.map fun y => (⟨y.r, y.id, ⟨(mine as y.id).map (key m.hb), 0⟩⟩ : RRec R)).map (toR m.hb), 0⟩ }

theorem Torn.repR (h : Torn m ls os ds rs) : Rep (seenR m (ls ++ ds)) (ls ++ ds) rs := ⟨.refl _, h.right, h.wf⟩

theorem Torn.apartA (h : Torn m ls os ds rs) : (ls ++ os).Pairwise ApartL := (List.pairwise_append.1 h.apart).1

theorem Torn.repL (h : Torn m ls os ds rs) : Rep (seenL m (ls ++ os) rs) (ls ++ os)
    (rs.map fun y => ⟨y.r, y.id, ⟨(mine (ls ++ os) y.id).map (key m.hb), 0⟩⟩) :=
  ⟨h.left, .refl _, h.wf.refill h.apartA h.boundL h.owner⟩

theorem Torn.looks (h : Torn m ls os ds rs) : Looks m (ls ++ os) where
  getL := fun x hx => h.repL.getL_of_mem hx
  getR := fun x hx => by
    obtain ⟨y, hy, e1, e2⟩ := h.owner x hx
    obtain ⟨rs', hp⟩ := perm_cons_of_mem hy
    have h2 := h.repR.perm (.refl _) hp
    refine ⟨(toR m.hb y).2, ?_, e2⟩
    rw [h.fresh x hx, ← e1, ← e2]
    exact getR_id h2.consR h2.wf.ridsApart

theorem PairIter.take_panics (n : Nat) (qs : List (UInt64 × Nat)) {q : UInt64 × Nat} (hq : q ∈ qs) (hn : qs.length ≤ n)
    (hg : m.left.get q.1 (leftWithLeftId q.2) = none) : PairIter.take m n ⟨qs⟩ = .error .unwrapNone := by
  induction n generalizing qs with
  | zero => cases qs with
    | nil => cases hq
    | cons => simp at hn
  | succ n ih =>
    cases qs with
    | nil => cases hq
    | cons a qs =>
      obtain ⟨k, i⟩ := a
      simp only [PairIter.take, PairIter.next]
      rcases List.mem_cons.1 hq with rfl | hq
      · simp only [hg, bind, Except.bind]
      · have := ih qs hq (by simpa using hn)
        cases m.left.get k (leftWithLeftId i) <;> simp only [this, bind, Except.bind]

theorem Torn.shows (h : Torn m ls os ds rs) {rights : List R} {A B : List (L × R)} (hr : rights.Perm (rs.map (·.r)))
    (hA : A.Perm ((ls ++ os).map fun x => (x.l, x.r))) (hB : B.Perm ((ls ++ ds).map fun x => (x.l, x.r))) :
    ShowsTorn m rights A B := by
  have repB : ReprG False (seenR m (ls ++ ds)) ⟨rights, B⟩ := ⟨_, _, h.repR, False.elim, hr, hB⟩
  have absA : Abs (ls ++ os) (rs.map fun y => (⟨y.r, y.id, ⟨(mine (ls ++ os) y.id).map (key m.hb), 0⟩⟩ : RRec R))
      ⟨rights, A⟩ := ⟨hr.trans (by rw [List.map_map]; exact .refl _), hA⟩
  have repA : Repr (seenL m (ls ++ os) rs) ⟨rights, A⟩ := ⟨_, _, h.repL, fun _ => h.fresh, absA⟩
  have absB : Abs (ls ++ ds) rs ⟨rights, B⟩ := ⟨hr, hB⟩
  have gone : ∀ x ∈ ds, ∀ k, m.left.get k (leftWithLeftId x.id) = none := by
    intro x hx k
    refine RawTable.get_none (h.repL.noneL (idsL fun a ha => ?_))
    exact ((List.pairwise_append.1 h.apart).2.2 a ha x hx).1
  have inA : ∀ x ∈ ls ++ ds, A.any (x.l == ·.1) = true ↔ x ∈ ls := by
    intro x hx
    rw [any_eq_of_perm hA, List.any_map, List.any_eq_true]
    constructor
    · rintro ⟨a, ha, e⟩
      rcases List.mem_append.1 hx with hx | hx
      · exact hx
      · have := ((List.pairwise_append.1 h.apart).2.2 a ha x hx).2
        rw [BEq.comm] at this
        simp_all
    · exact fun hx => ⟨x, List.mem_append_left _ hx, by simp⟩
  refine ⟨?_, iterLeft_refines (m := seenL m (ls ++ os) rs) repA, lenLeft_refines (m := seenL m (ls ++ os) rs) repA,
    containsLeft_refines (m := seenL m (ls ++ os) rs) repA, ?_, iterUnpairedList_refines (m := seenR m (ls ++ ds)) repB,
    iterRight_refines (m := seenR m (ls ++ ds)) repB, lenRight_refines (m := seenR m (ls ++ ds)) repB,
    containsRight_refines (m := seenR m (ls ++ ds)) repB, isRightPaired_refines (m := seenR m (ls ++ ds)) repB, ?_, ?_, ?_⟩
  · obtain ⟨xs, hp, e⟩ := h.repL.leftList
    have e : m.left.toList = xs.map fun x => (toL m.hb x).2 := e
    have := PairedIter.take_ok h.looks (m.left.len + 1) xs fun x hx => hp.mem_iff.1 hx
    refine ⟨xs.map fun x => (x.l, x.r), ?_, (hp.map _).trans hA.symm⟩
    simp only [iterPairedList, iterPaired, e, this, bind, Except.bind, pure, Except.pure]
    rw [List.take_of_length_le]
    have := h.left.length_eq
    simp only [List.length_map] at this
    rw [RawTable.len, this, hp.length_eq]; omega
  · intro l
    rcases h.repL.wf.casesL l with hn | ⟨x, ls', hp, hl, hn⟩
    · rw [show A.find? (l == ·.1) = none from absA.findL_none hn, getRight, getRightBy]
      have : m.left.get (m.hb.hl l) (fun y => y.value == l) = none :=
        RawTable.get_none (h.repL.noneL (P := fun y : LeftItem L => y.value == l) (keysL hn))
      rw [this]; rfl
    · have hx : x ∈ ls ++ os := hp.mem_iff.2 List.mem_cons_self
      rw [show A.find? (l == ·.1) = some (x.l, x.r) from (absA.perm hp (.refl _)).findL_some hl hn]
      have : m.left.get (m.hb.hl l) (fun y => y.value == l) = some (toL m.hb x).2 := getLeft_eq h.repL hx hl
      obtain ⟨v, e, hv⟩ := h.looks.getR x hx
      rw [getRight, getRightBy, this]
      simp only [toL, e, Option.map_some, hv]
  · intro l r
    rcases h.repL.wf.casesL l with hn | ⟨x, ls', hp, hl, hn⟩
    · have : m.left.get (m.hb.hl l) (equivalentKeyLeft l) = none := RawTable.get_none (h.repL.noneL (keysL hn))
      rw [show (A.any fun p => l == p.1 && r == p.2) = false from absA.hasPair_none hn]
      simp only [arePaired, this, Bool.false_and]
    · have hx : x ∈ ls ++ os := hp.mem_iff.2 List.mem_cons_self
      have e1 : m.left.get (m.hb.hl l) (equivalentKeyLeft l) = some (toL m.hb x).2 := getLeft_eq h.repL hx hl
      rw [show (A.any fun p => l == p.1 && r == p.2) = (r == x.r) from (absA.perm hp (.refl _)).hasPair_some hl hn]
      rcases h.wf.casesR r with hn' | ⟨y, rs', hq, hr', hn'⟩
      · have e2 : m.right.get (m.hb.hr r) (equivalentKeyRight r) = none := RawTable.get_none (h.repR.noneR (keysR hn'))
        obtain ⟨z, hz, -, ez⟩ := h.owner x hx
        have := hn' z hz
        rw [ez] at this
        simp only [arePaired, e1, e2, this, Bool.false_and]
      · have h2 := h.repR.perm (.refl _) hq
        have hy : y ∈ rs := hq.mem_iff.2 List.mem_cons_self
        have e2 : m.right.get (m.hb.hr r) (equivalentKeyRight r) = some (toR m.hb y).2 :=
          getR_eq h2.consR hr' (h2.wf.othersR hr')
        simp only [arePaired, e1, e2, toL, toR]
        have hk : key m.hb x = (m.hb.hl l, x.id) := by rw [key, m.hb.hl_congr _ _ hl]
        rw [← hk, Bool.eq_iff_iff]
        rw [Bool.and_eq_true, Bool.and_eq_true, PairSet.contains_iff, List.any_eq_true]
        constructor
        · rintro ⟨-, hc⟩
          rw [(h.wf.pairs y hy).mem_iff] at hc
          obtain ⟨a, ha, ea⟩ := List.mem_map.1 hc
          have ha' := List.mem_filter.1 ha
          have hid : a.id = x.id := (Prod.ext_iff.1 ea).2
          have : a = x := by
            rcases List.mem_append.1 ha'.1 with hl | hd
            · exact h.repL.wf.sameL (List.mem_append_left _ hl) hx hid
            · exact absurd hid.symm ((List.pairwise_append.1 h.apart).2.2 x hx a hd).1
          subst this
          have hrx : (r == a.r) = true := by rw [← h.wf.own_iff hy hr' ha'.1]; exact ha'.2
          exact ⟨hrx, (a.l, a.r), hB.mem_iff.2 (List.mem_map_of_mem ha'.1), by simp [hl, hrx]⟩
        · rintro ⟨hrx, p, hp, hpl⟩
          refine ⟨by rw [m.hb.hr_congr _ _ hrx]; simp, ?_⟩
          obtain ⟨a, ha, rfl⟩ := List.mem_map.1 (hB.mem_iff.1 hp)
          simp only [Bool.and_eq_true] at hpl
          have hax : (x.l == a.l) = true := BEq.trans (BEq.symm hl) hpl.1
          have : a = x := by
            rcases List.mem_append.1 ha with hl' | hd
            · obtain ⟨ls2, hp2⟩ := perm_cons_of_mem hx
              rcases List.mem_cons.1 (hp2.mem_iff.1 (List.mem_append_left _ hl')) with e | hm
              · exact e
              · have := ((h.repL.wf.perm hp2 (.refl _)).tailL a hm).2
                rw [hax] at this; cases this
            · have := ((List.pairwise_append.1 h.apart).2.2 x hx a hd).2
              rw [hax] at this; cases this
          subst this
          rw [h.wf.mem_pairs ha hy]
          have := h.wf.own_iff hy hr' ha
          rw [hrx] at this
          simpa using this
  · intro r hall
    rcases h.wf.casesR r with hn | ⟨y, rs', hq, hr', hn⟩
    · refine ⟨_, ?_, .refl _⟩
      have : m.getLeftIter r = none := getLeftIter_none h.repR hn
      rw [getLeftList, this, show rights.find? (r == ·) = none from absB.findR_none hn]
      rfl
    · have hy : y ∈ rs := hq.mem_iff.2 List.mem_cons_self
      obtain ⟨qs, e, hp⟩ := getLeftIter_some h.repR hy hr'
      have e : m.getLeftIter r = some ⟨qs.map (key m.hb)⟩ := e
      refine ⟨qs.map (·.l), ?_, (hp.map _).trans (absB.group_some h.wf hy hr').symm⟩
      rw [getLeftList, e, show rights.find? (r == ·) = some y.r from (absB.perm (.refl _) hq).findR_some hr' hn]
      have := PairIter.take_ok (m := m) (PairIter.len ⟨qs.map (key m.hb)⟩ + 1) qs fun x hx => ?_
      · simp only [this, bind, Except.bind, pure, Except.pure, Option.map_some]
        rw [List.take_of_length_le (by simp [PairIter.len])]
      · have hm := List.mem_filter.1 (hp.mem_iff.1 hx)
        refine h.looks.getL x (List.mem_append_left _ ((inA x hm.1).1 (hall (x.l, x.r) ?_ ?_)))
        · exact hB.mem_iff.2 (List.mem_map.2 ⟨x, hm.1, rfl⟩)
        · rw [← h.wf.own_iff hy hr' hm.1]; exact hm.2
  · intro r p hpB hrp hpA
    obtain ⟨x, hx, rfl⟩ := List.mem_map.1 (hB.mem_iff.1 hpB)
    have hxd : x ∈ ds := by
      rcases List.mem_append.1 hx with hl | hd
      · have := (inA x hx).2 hl
        simp only at hpA
        rw [this] at hpA; cases hpA
      · exact hd
    obtain ⟨y, hy, e1, e2⟩ := h.wf.owner x hx
    have hr' : (r == y.r) = true := by rw [e2]; exact hrp
    obtain ⟨qs, e, hp⟩ := getLeftIter_some h.repR hy hr'
    have e : m.getLeftIter r = some ⟨qs.map (key m.hb)⟩ := e
    have hxq : x ∈ qs := hp.mem_iff.2 (List.mem_filter.2 ⟨hx, by simp [e1]⟩)
    rw [getLeftList, e]
    have := PairIter.take_panics (m := m) (PairIter.len ⟨qs.map (key m.hb)⟩ + 1) (qs.map (key m.hb))
      (List.mem_map_of_mem hxq) (by simp [PairIter.len]) (gone x hxd _)
    simp only [this, bind, Except.bind]


/-! ### `insert` of a pair that is there -/

/-- the iterator of a map with left items that no right item refers to -/
theorem Torn.iterList (h : Torn m ls os [] rs) (ha : Abs ls rs c) : ∃ d, m.iterList = .ok d ∧ d.Perm (entries c) := by
  have h2 := h.repR
  rw [List.append_nil] at h2
  obtain ⟨zs, hi, hp⟩ := iter_at h2 ha
  have hi' : IterAt m ls m.iter [] zs := ⟨hi.cur, hi.todo, hi.mem, hi.grp⟩
  have hl : Looks m ls := ⟨fun x hx => h.looks.getL x (List.mem_append_left _ hx),
    fun x hx => h.looks.getR x (List.mem_append_left _ hx)⟩
  obtain ⟨it2, -, -, e2, -⟩ := Iter.take_ok hl (m.iter.fuel + 1) hi'
  have := hi'.fuel
  refine ⟨yields [] zs, ?_, hp⟩
  simp only [GroupMap.iterList, e2, bind, Except.bind, pure, Except.pure]
  rw [List.take_of_length_le (by omega)]

theorem insert_torn (h : Repr m c) {l : L} {r : R} (hp : hasPair c l r = true) :
    ∃ (m' : GroupMap L R) (x : LRec L R) (ls : List (LRec L R)) (rs : List (RRec R)),
      m.insert l r = .ok m' ∧ Torn m' ls [x] [] rs ∧ Abs (ls ++ [x]) rs c ∧ (l == x.l) = true ∧
      (∀ a ∈ ls, (l == a.l) = false) ∧ Next m m' := by
  obtain ⟨ls, rs, h, hf, ha⟩ := h
  have hf := hf trivial
  rcases splitL h l with hn | ⟨x, ls', y, rs', hp1, hq, hl, hn, h1, h2⟩
  · rw [ha.hasPair_none hn] at hp; cases hp
  have h := h.perm hp1 hq
  have ha := ha.perm hp1 hq
  have hf : Fresh (x :: ls') := fun a h => hf a (hp1.mem_iff.2 h)
  rw [ha.hasPair_some hl hn] at hp
  have hr : (r == y.r) = true := by rw [h2]; exact hp
  obtain ⟨w, e1, p1⟩ := getMutL_eq h.consL hl (h.wf.others hl)
  obtain ⟨w2, e2, p2⟩ := getMutR_eq h.consR hr (h.wf.othersR hr)
  have hkey : key m.hb x ∈ y.pairs.entries := (h.wf.mem_pairs List.mem_cons_self List.mem_cons_self).2 h1.symm
  have hk : (m.hb.hl l, x.id) = key m.hb x := by rw [key, m.hb.hl_congr _ _ hl]
  have hins : y.pairs.insert (m.hb.hl l, x.id) = y.pairs := by rw [hk]; exact PairSet.insert_of_mem hkey
  have hrid : x.rid = y.id := by rw [hf x List.mem_cons_self, h1]
  have p2' := p2 ⟨y.r, y.pairs, y.id⟩
  obtain ⟨w3, e3, p3⟩ := getMutR_id (hb := m.hb) (y := y) (rs := rs') p2' h.wf.ridsApart
  have hhash : m.hb.hr r = m.hb.hr x.r := by rw [m.hb.hr_congr _ _ hr, h2]
  have hfresh' : x.rid = x.own := hf x List.mem_cons_self
  refine ⟨{ m with left := w ⟨x.l, m.hb.hr r, y.id, x.id⟩, right := w3 ⟨y.r, y.pairs.remove (m.hb.hl l, x.id), y.id⟩ },
    x, ls', ⟨y.r, y.id, y.pairs.remove (m.hb.hl l, x.id)⟩ :: rs', ?_, ?_, ?_, hl, hn, rfl, by simp, by simp⟩
  · have e3' : (w2 ⟨y.r, y.pairs, y.id⟩).getMut (m.hb.hr x.r) (rightWithRightId x.rid) = some ((toR m.hb y).2, w3) := by
      rw [hrid, ← h2]; exact e3
    simp only [insert, e1, e2, toL, toR, hins]
    simp only [e3', toR]
  · refine ⟨?_, ?_, ?_, ?_, ?_, ?_, ?_⟩
    · refine (p1 _).trans ?_
      rw [List.map_append]
      refine .trans (.of_eq ?_) List.perm_append_comm
      simp only [List.map_cons, List.map_nil, List.singleton_append, toL, hhash, hrid]
    · exact p3 _
    · rw [List.append_nil]
      exact h.wf.dropLeft h1 (by rw [hk]; exact PairSet.remove_perm _ _)
    · rw [List.append_nil]
      exact (List.perm_append_singleton _ _ |>.pairwise_iff (fun h => h.symm)).2 h.wf.apartL
    · intro a ha'
      exact h.wf.boundL a ((List.perm_append_singleton _ _).mem_iff.1 ha')
    · intro a ha'
      exact hf a ((List.perm_append_singleton _ _).mem_iff.1 ha')
    · intro a ha'
      obtain ⟨z, hz, e⟩ := h.wf.owner a ((List.perm_append_singleton _ _).mem_iff.1 ha')
      rcases List.mem_cons.1 hz with rfl | hz
      · exact ⟨_, List.mem_cons_self, e⟩
      · exact ⟨z, List.mem_cons_of_mem _ hz, e⟩
  · exact (⟨ha.rights, ha.pairs⟩ : Abs (x :: ls') (⟨y.r, y.id, y.pairs.remove (m.hb.hl l, x.id)⟩ :: rs') c).perm
      (List.perm_append_singleton _ _).symm (.refl _)

/-- no right item refers to the orphan -/
theorem Torn.unknown {x : LRec L R} (h : Torn m ls [x] [] rs) (k : UInt64) :
    m.right.getMut k (rightWithLeftPair (key m.hb x)) = none := by
  refine RawTable.getMut_none (h.repR.noneR (pairsR fun y hy hc => ?_))
  rw [(h.wf.pairs y hy).mem_iff] at hc
  obtain ⟨a, ha, e⟩ := List.mem_map.1 hc
  have ha := (List.mem_filter.1 ha).1
  rw [List.append_nil] at ha
  have := (List.pairwise_append.1 (by simpa using h.apart : (ls ++ [x]).Pairwise ApartL)).2.2 a ha x (by simp)
  exact this.1 (Prod.ext_iff.1 e).2

theorem Torn.removeLeft_panics {x : LRec L R} (h : Torn m ls [x] [] rs) {l : L} (hl : (l == x.l) = true)
    (hn : ∀ a ∈ ls, (l == a.l) = false) : m.removeLeft l = .error .unwrapNone := by
  have hp : m.left.entries.Perm (toL m.hb x :: ls.map (toL m.hb)) :=
    h.left.trans ((List.perm_append_singleton _ _).map _)
  obtain ⟨t, e, -⟩ := removeL_eq hp hl hn
  have hk : (m.hb.hl l, x.id) = key m.hb x := by rw [key, m.hb.hl_congr _ _ hl]
  simp only [removeLeft, e, toL, hk, h.unknown]

theorem Torn.insert_panics {x : LRec L R} (h : Torn m ls [x] [] rs) {l : L} (hl : (l == x.l) = true)
    (hn : ∀ a ∈ ls, (l == a.l) = false) {r : R} (hr : ∀ a ∈ rs, (r == a.r) = false) :
    m.insert l r = .error .unwrapNone := by
  have hp : m.left.entries.Perm (toL m.hb x :: ls.map (toL m.hb)) :=
    h.left.trans ((List.perm_append_singleton _ _).map _)
  obtain ⟨w, e, -⟩ := getMutL_eq hp hl hn
  have e2 : m.right.getMut (m.hb.hr r) (equivalentKeyRight r) = none := RawTable.getMut_none (h.repR.noneR (keysR hr))
  have hk : (m.hb.hl l, x.id) = key m.hb x := by rw [key, m.hb.hl_congr _ _ hl]
  simp only [insert, e, e2, toL, hk, h.unknown]

/-- `pair` makes the map coherent again -/
theorem Torn.pair_repairs {x : LRec L R} (h : Torn m ls [x] [] rs) (ha : Abs (ls ++ [x]) rs c) {l : L}
    (hl : (l == x.l) = true) (hn : ∀ a ∈ ls, (l == a.l) = false) {r b : R} (hr : findR c r = some b) :
    ∃ m', m.pair l r = .ok (true, m') ∧ Repr m' (GroupSpec.pair c l r).2 := by
  have hp : m.left.entries.Perm (toL m.hb x :: ls.map (toL m.hb)) :=
    h.left.trans ((List.perm_append_singleton _ _).map _)
  obtain ⟨w, e1, p1⟩ := getMutL_eq hp hl hn
  have hk : (m.hb.hl l, x.id) = key m.hb x := by rw [key, m.hb.hl_congr _ _ hl]
  rcases h.wf.casesR r with hn' | ⟨y, rs', hq, hr', hn'⟩
  · rw [ha.findR_none hn'] at hr; cases hr
  have hwf := h.wf
  rw [List.append_nil] at hwf
  have hrep : Rep (seenR m ls) ls rs := by have := h.repR; rwa [List.append_nil] at this
  have hR := hrep.perm (.refl _) hq
  have e2 : m.right.get (m.hb.hr r) (equivalentKeyRight r) = some (toR m.hb y).2 := getR_eq hR.consR hr' (hR.wf.othersR hr')
  have hxm : x ∈ ls ++ [x] := by simp
  obtain ⟨z, hz, z1, z2⟩ := h.owner x hxm
  obtain ⟨rs2, hq2⟩ := perm_cons_of_mem hz
  have hR2 := hrep.perm (.refl _) hq2
  obtain ⟨w2, e3, p3⟩ := getMutR_id hR2.consR hR2.wf.ridsApart
  have e3 : m.right.getMut (m.hb.hr x.r) (rightWithRightId x.rid) = some ((toR m.hb z).2, w2) := by
    rw [h.fresh x hxm, ← z1, ← z2]; exact e3
  have hnot : (m.hb.hl l, x.id) ∉ z.pairs.entries := by
    intro hc
    have hu := h.unknown (m.hb.hr z.r)
    rw [← hk] at hu
    obtain ⟨w', e', -⟩ := getMutR_pair (hb := m.hb) hR2.consR hc fun a ha hca => by
      have hm : a ∈ rs := hq2.mem_iff.2 (List.mem_cons_of_mem _ ha)
      rw [(hwf.pairs a hm).mem_iff] at hca
      obtain ⟨q, hqm, eq⟩ := List.mem_map.1 hca
      have := (List.pairwise_append.1 (by simpa using h.apart : (ls ++ [x]).Pairwise ApartL)).2.2 q
        (List.mem_filter.1 hqm).1 x (by simp)
      exact this.1 (Prod.ext_iff.1 eq).2
    have e'' : m.right.getMut (m.hb.hr z.r) (rightWithLeftPair (m.hb.hl l, x.id)) = some ((toR m.hb z).2, w') := e'
    rw [hu] at e''; cases e''
  have hrem : z.pairs.remove (m.hb.hl l, x.id) = z.pairs := by
    unfold PairSet.remove
    rw [if_neg (by rw [PairSet.contains_iff]; exact hnot)]
  have p3' : (w2 ⟨z.r, z.pairs, z.id⟩).entries.Perm ((y :: rs').map (toR m.hb)) := by
    refine (p3 _).trans ?_
    exact (hq2.map (toR m.hb)).symm.trans (hq.map (toR m.hb))
  obtain ⟨w3, e4, p4⟩ := getMutR_eq (hb := m.hb) (y := y) (rs := rs') p3' hr' hn'
  have hap : ∀ a ∈ ls, ApartL x a := fun a hm =>
    ((List.pairwise_append.1 (by simpa using h.apart : (ls ++ [x]).Pairwise ApartL)).2.2 a hm x (by simp)).symm
  have hkn : (m.hb.hl l, x.id) ∉ y.pairs.entries :=
    hR.wf.new_not_mem (fun a hm => (hap a hm).1.symm) List.mem_cons_self _
  refine ⟨{ m with left := w ⟨x.l, m.hb.hr r, y.id, x.id⟩,
                   right := w3 ⟨y.r, y.pairs.insert (m.hb.hl l, x.id), y.id⟩ }, ?_, ?_⟩
  · simp only [pair, e1, e2, toL, toR, e3, hrem, e4]
  · refine ⟨⟨x.l, x.id, y.r, y.id, y.id⟩ :: ls, ⟨y.r, y.id, y.pairs.insert (m.hb.hl l, x.id)⟩ :: rs',
      ⟨?_, p4 _, ?_⟩, fun _ => ?_, ?_⟩
    · refine (p1 _).trans (.of_eq ?_)
      simp only [List.map_cons, toL, m.hb.hr_congr _ _ hr']
    · refine hR.wf.addLeft (fun a hm => (hap a hm).2) (fun a hm => (hap a hm).1.symm) (h.boundL x hxm) (Nat.le_refl _) ?_
      show (y.pairs.insert (m.hb.hl l, x.id)).entries.Perm ((m.hb.hl x.l, x.id) :: y.pairs.entries)
      rw [← m.hb.hl_congr _ _ hl]
      exact PairSet.insert_perm hkn
    · intro a hm
      rcases List.mem_cons.1 hm with rfl | hm
      · rfl
      · exact h.fresh a (List.mem_append_left _ hm)
    · have ha2 := ha.perm (List.perm_append_singleton _ _) hq
      have e : GroupSpec.pair c l r = (true, { c with pairs := (x.l, y.r) :: (eraseL c l).pairs }) := by
        rw [GroupSpec.pair, ha2.findL_some hl hn, ha2.findR_some hr' hn']
      rw [e]
      exact ⟨ha2.rights, ((ha2.eraseL_some hl hn).pairs).cons _⟩

/-! ### `retain_paired` -/

theorem removeAll_panics (qs : List (UInt64 × Nat)) (t : RawTable (LeftItem L)) {q : UInt64 × Nat} (hq : q ∈ qs)
    (hn : ∀ e ∈ t.entries, leftWithLeftId q.2 e.2 = false) : removeAll t qs = .error .unwrapNone := by
  induction qs generalizing t with
  | nil => cases hq
  | cons a qs ih =>
    obtain ⟨k, i⟩ := a
    simp only [removeAll]
    rcases List.mem_cons.1 hq with rfl | hq
    · rw [RawTable.removeEntry_none hn]
    · cases hr : t.removeEntry k (leftWithLeftId i) with
      | none => rfl
      | some v =>
        obtain ⟨v, t'⟩ := v
        have := ih t' hq ?_
        · simp only [this, bind, Except.bind]
        · intro e he
          refine hn e ?_
          rw [RawTable.removeEntry] at hr
          split at hr
          · cases hr
          · next j hj =>
            obtain ⟨x, hx, -⟩ := LawfulRaw.find_sound _ _ _ _ hj
            simp only [hx, Option.map_some, Option.some.injEq, Prod.mk.injEq] at hr
            rw [← hr.2] at he
            exact List.mem_of_mem_eraseIdx ((LawfulRaw.touch_perm _ _).mem_iff.1 he)

theorem Dangling.torn {ds : List (LRec L R)} (h : Dangling m ls ds rs) (hf : Fresh ls) : Torn m ls [] ds rs where
  left := by rw [List.append_nil]; exact h.left
  right := h.right
  wf := h.wf
  apart := by rw [List.append_nil]; exact h.wf.apartL
  boundL := fun x hx => h.wf.boundL x (List.mem_append_left _ (by simpa using hx))
  fresh := fun x hx => hf x (by simpa using hx)
  owner := fun x hx => h.wf.owner x (List.mem_append_left _ (by simpa using hx))

/-- `retain_paired` on any map: the left items accepted by the closure go, the right items keep referring to them. -/
theorem retainPaired_torn {σ : Type} (h : Repr m c) (f : σ → L → R → Bool × σ) (s : σ) :
    ∃ (d : List (L × R)) (m' : GroupMap L R), d.Perm c.pairs ∧
      m.retainPaired f s = .ok ((split (fun s p => f s p.1 p.2) d s).2.2, m') ∧
      ShowsTorn m' c.rights (split (fun s p => f s p.1 p.2) d s).2.1 c.pairs ∧
      (∀ r p, p ∈ (split (fun s p => f s p.1 p.2) d s).1 → (r == p.2) = true →
        m'.removeRight r = .error .unwrapNone) ∧ m'.hb = m.hb := by
  obtain ⟨ls, rs, h, hf, ha⟩ := h
  have hf := hf trivial
  obtain ⟨xs, t, hp, e, hd⟩ := retainPaired_records h hf f s
  have hsp := split_perm (fun s (x : LRec L R) => f s x.l x.r) xs s
  have hms := split_mapped (fun s (p : L × R) => f s p.1 p.2) (fun x : LRec L R => (x.l, x.r)) xs s
  generalize split (fun s (x : LRec L R) => f s x.l x.r) xs s = q at e hd hsp hms
  obtain ⟨as, ks, s'⟩ := q
  simp only at e hd hsp hms
  have hls : (ks ++ as).Perm ls := (List.perm_append_comm.trans hsp).trans hp
  have hfk : Fresh ks := fun x hx => hf x (hls.mem_iff.1 (List.mem_append_left _ hx))
  have ht := hd.torn hfk
  refine ⟨xs.map fun x => (x.l, x.r), { m with left := t }, (hp.map _).trans ha.pairs.symm, ?_, ?_, ?_, rfl⟩
  · rw [e, hms]
  · rw [hms]
    refine ht.shows ha.rights ?_ (ha.pairs.trans (hls.map _).symm)
    simp
  · intro r p hpa hr
    rw [hms] at hpa
    obtain ⟨x, hx, rfl⟩ := List.mem_map.1 hpa
    have hxm : x ∈ ks ++ as := List.mem_append_right _ hx
    obtain ⟨y, rs', hq, y1, y2, -⟩ := ht.wf.ownerOf hxm
    have hr' : (r == y.r) = true := by rw [y2]; exact hr
    have h2 := ht.repR.perm (.refl _) hq
    obtain ⟨t2, e2, -⟩ := removeR_eq h2.consR hr' (h2.wf.othersR hr')
    have e2 : RawTable.removeEntry m.right (m.hb.hr r) (equivalentKeyRight r) = some ((toR m.hb y).2, t2) := e2
    have hmem : key m.hb x ∈ y.pairs.entries := (h2.wf.mem_pairs hxm List.mem_cons_self).2 y1.symm
    have := removeAll_panics y.pairs.entries t hmem fun e he => by
      refine idsL (hb := m.hb) (ls := ks) (fun a ha' => ?_) e (hd.left.mem_iff.1 he)
      exact ((List.pairwise_append.1 hd.wf.apartL).2.2 a ha' x hx).1
    simp only [removeRight, e2, toR, this, bind, Except.bind]

end Verif.GroupMap
