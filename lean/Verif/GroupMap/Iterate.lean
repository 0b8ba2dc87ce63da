import Verif.GroupMap.Refine
/-! The iterators of `GroupMap`. -/
set_option linter.unusedSectionVars false
set_option linter.unusedSimpArgs false
namespace Verif.GroupMap
open GroupSpec

variable [RawImpl] [LawfulRaw] {L R : Type} [BEq L] [BEq R] [EquivBEq L] [EquivBEq R]
variable {G : Prop} {m : GroupMap L R} {c : Contents L R} {ls : List (LRec L R)} {rs : List (RRec R)}

theorem Rep.getL_of_mem (h : Rep m ls rs) {x : LRec L R} (hx : x ∈ ls) :
    m.left.get (key m.hb x).1 (leftWithLeftId (key m.hb x).2) = some (toL m.hb x).2 := by
  obtain ⟨ls', hp⟩ := perm_cons_of_mem hx
  have h := h.perm hp (.refl _)
  exact getL_id h.consL h.wf.idsApart

theorem Rep.getR_of_mem (h : Rep m ls rs) {x : LRec L R} (hx : x ∈ ls) (hf : x.rid = x.own) :
    ∃ y ∈ rs, m.right.get (m.hb.hr x.r) (rightWithRightId x.rid) = some (toR m.hb y).2 ∧ y.r = x.r := by
  obtain ⟨y, rs', hp, h1, h2, -⟩ := h.wf.ownerOf hx
  have h := h.perm (.refl _) hp
  refine ⟨y, hp.mem_iff.2 List.mem_cons_self, ?_, h2⟩
  rw [hf, ← h1, ← h2]
  exact getR_id h.consR h.wf.ridsApart

/-- the references held by these left items and to them lead where they should -/
structure Looks (m : GroupMap L R) (ls : List (LRec L R)) : Prop where
  getL : ∀ x ∈ ls, m.left.get (key m.hb x).1 (leftWithLeftId (key m.hb x).2) = some (toL m.hb x).2
  getR : ∀ x ∈ ls, ∃ v, m.right.get (m.hb.hr x.r) (rightWithRightId x.rid) = some v ∧ v.value = x.r

theorem Rep.looks (h : Rep m ls rs) (hf : Fresh ls) : Looks m ls where
  getL := fun _ hx => h.getL_of_mem hx
  getR := fun x hx => by
    obtain ⟨y, _, e, hr⟩ := h.getR_of_mem hx (hf x hx)
    exact ⟨_, e, hr⟩

/-! ### `PairIter` -/

omit [EquivBEq L] [EquivBEq R] in
theorem PairIter.take_ok (n : Nat) (qs : List (LRec L R))
    (hq : ∀ x ∈ qs, m.left.get (key m.hb x).1 (leftWithLeftId (key m.hb x).2) = some (toL m.hb x).2) :
    PairIter.take m n ⟨qs.map (key m.hb)⟩ = .ok ((qs.take n).map (·.l), ⟨(qs.drop n).map (key m.hb)⟩) := by
  induction n generalizing qs with
  | zero => simp [PairIter.take]
  | succ n ih =>
    cases qs with
    | nil => simp [PairIter.take, PairIter.next, bind, Except.bind, pure, Except.pure]
    | cons x qs =>
      have := hq x List.mem_cons_self
      simp only [PairIter.take, PairIter.next, List.map_cons, this, bind, Except.bind]
      rw [ih qs fun a ha => hq a (List.mem_cons_of_mem _ ha)]
      simp [pure, Except.pure, toL]

theorem getLeftIter_none (h : Rep m ls rs) {r : R} (hn : ∀ a ∈ rs, (r == a.r) = false) : m.getLeftIter r = none := by
  have : m.right.get (m.hb.hr r) (fun y => y.value == r) = none := RawTable.get_none (h.noneR (keysR hn))
  rw [getLeftIter, getLeftIterBy, this]; rfl

theorem getLeftIter_some (h : Rep m ls rs) {r : R} {y : RRec R} (hy : y ∈ rs) (hr : (r == y.r) = true) :
    ∃ qs : List (LRec L R), m.getLeftIter r = some ⟨qs.map (key m.hb)⟩ ∧ qs.Perm (mine ls y.id) := by
  obtain ⟨rs', hp⟩ := perm_cons_of_mem hy
  have h := h.perm (.refl _) hp
  obtain ⟨qs, hq, e⟩ := perm_map_inv (h.wf.pairs y List.mem_cons_self)
  have : m.right.get (m.hb.hr r) (fun y => y.value == r) = _ := getR_eq h.consR hr (h.wf.othersR hr)
  refine ⟨qs, ?_, hq.symm⟩
  rw [getLeftIter, getLeftIterBy, this]
  simp [toR, e]

omit [EquivBEq L] [EquivBEq R] in
theorem mem_of_mine {qs : List (LRec L R)} {i : Nat} (h : qs.Perm (mine ls i)) : ∀ x ∈ qs, x ∈ ls :=
  fun _ hx => (List.mem_filter.1 (h.mem_iff.1 hx)).1

/-- a `get_left_iter` after `n` calls of `next` -/
theorem getLeft_take (h : ReprG G m c) (r : R) :
    (findR c r = none ∧ m.getLeftIter r = none) ∨
    ∃ (it : PairIter) (ks : List L), (findR c r).isSome = true ∧ m.getLeftIter r = some it ∧ ks.Perm (group c r) ∧
      ∀ n, ∃ it', PairIter.take m n it = .ok (ks.take n, it') ∧ it'.len = (ks.drop n).length ∧
        ∀ k, ∃ it'', PairIter.take m k it' = .ok ((ks.drop n).take k, it'') := by
  obtain ⟨ls, rs, h, hf, ha⟩ := h
  rcases h.wf.casesR r with hn | ⟨y, rs', hq, hr, hn⟩
  · exact .inl ⟨ha.findR_none hn, getLeftIter_none h hn⟩
  · have hy : y ∈ rs := hq.mem_iff.2 List.mem_cons_self
    obtain ⟨qs, e, hp⟩ := getLeftIter_some h hy hr
    refine .inr ⟨_, qs.map (·.l), ?_, e, (hp.map _).trans (ha.group_some h.wf hy hr).symm, fun n => ?_⟩
    · rw [(ha.perm (.refl _) hq).findR_some hr hn]; rfl
    · refine ⟨⟨(qs.drop n).map (key m.hb)⟩, ?_, by simp [PairIter.len], fun k => ⟨⟨((qs.drop n).drop k).map (key m.hb)⟩, ?_⟩⟩
      · rw [PairIter.take_ok n qs fun x hx => h.getL_of_mem (mem_of_mine hp x hx), List.map_take]
      · rw [PairIter.take_ok k (qs.drop n) fun x hx => h.getL_of_mem (mem_of_mine hp x (List.mem_of_mem_drop hx)), List.map_take,
          List.map_drop]

theorem getLeftList_refines (h : ReprG G m c) (r : R) :
    ∃ ks, m.getLeftList r = .ok ((findR c r).map fun _ => ks) ∧ ks.Perm (group c r) := by
  rcases getLeft_take h r with ⟨h1, h2⟩ | ⟨it, ks, h1, h2, h3, h4⟩
  · refine ⟨group c r, ?_, .refl _⟩
    rw [getLeftList, h2, h1]; rfl
  · obtain ⟨it', e, -, -⟩ := h4 (it.len + 1)
    obtain ⟨it0, e0, e1, -⟩ := h4 0
    have hlen : it.len = ks.length := by
      simp only [PairIter.take, List.take_zero] at e0
      have := (Prod.ext_iff.1 (Except.ok.inj e0)).2
      simp only at this
      rw [this, e1]; simp
    refine ⟨ks, ?_, h3⟩
    obtain ⟨b, hb⟩ := Option.isSome_iff_exists.1 h1
    rw [getLeftList, h2, hb]
    simp only [e, bind, Except.bind, pure, Except.pure, Option.map_some]
    rw [List.take_of_length_le (by omega)]

/-! ### `PairedIter` -/

omit [EquivBEq L] [EquivBEq R] in
theorem PairedIter.take_ok (h : Looks m ls) (n : Nat) (xs : List (LRec L R)) (hx : ∀ x ∈ xs, x ∈ ls) :
    PairedIter.take m n ⟨xs.map fun x => (toL m.hb x).2⟩ =
      .ok ((xs.take n).map (fun x => (x.l, x.r)), ⟨(xs.drop n).map fun x => (toL m.hb x).2⟩) := by
  induction n generalizing xs with
  | zero => simp [PairedIter.take]
  | succ n ih =>
    cases xs with
    | nil => simp [PairedIter.take, PairedIter.next, bind, Except.bind, pure, Except.pure]
    | cons x xs =>
      have hxl := hx x List.mem_cons_self
      obtain ⟨v, e, hr⟩ := h.getR x hxl
      have e' : m.right.get (toL m.hb x).2.hash (rightWithRightId (toL m.hb x).2.rid) = some v := e
      simp only [PairedIter.take, PairedIter.next, List.map_cons, e', bind, Except.bind]
      rw [ih xs fun a ha => hx a (List.mem_cons_of_mem _ ha)]
      simp [pure, Except.pure, toL, toR, hr]

theorem Rep.leftList (h : Rep m ls rs) : ∃ xs : List (LRec L R), xs.Perm ls ∧ m.left.toList = xs.map fun x => (toL m.hb x).2 := by
  obtain ⟨xs, hp, e⟩ := perm_map_inv h.left
  exact ⟨xs, hp.symm, by rw [RawTable.toList, e, List.map_map]; rfl⟩

theorem Rep.rightList (h : Rep m ls rs) : ∃ ys : List (RRec R), ys.Perm rs ∧ m.right.toList = ys.map fun y => (toR m.hb y).2 := by
  obtain ⟨ys, hp, e⟩ := perm_map_inv h.right
  exact ⟨ys, hp.symm, by rw [RawTable.toList, e, List.map_map]; rfl⟩

/-- `iter_paired` after `n` calls of `next` -/
theorem iterPaired_take (h : Repr m c) : ∃ d : List (L × R), d.Perm c.pairs ∧ ∀ n, ∃ it,
    PairedIter.take m n m.iterPaired = .ok (d.take n, it) ∧ it.len m = .ok (d.drop n).length ∧
      it.sizeHint = (d.drop n).length ∧ ∀ k, ∃ it', PairedIter.take m k it = .ok ((d.drop n).take k, it') := by
  obtain ⟨ls, rs, h, hf, ha⟩ := h
  have hf := hf trivial
  obtain ⟨xs, hp, e⟩ := h.leftList
  refine ⟨xs.map fun x => (x.l, x.r), (hp.map _).trans ha.pairs.symm, fun n => ?_⟩
  have hm : ∀ x ∈ xs.drop n, x ∈ ls := fun x hx => hp.mem_iff.1 (List.mem_of_mem_drop hx)
  refine ⟨⟨(xs.drop n).map fun x => (toL m.hb x).2⟩, ?_, ?_, by simp [PairedIter.sizeHint],
    fun k => ⟨⟨((xs.drop n).drop k).map fun x => (toL m.hb x).2⟩, ?_⟩⟩
  · rw [iterPaired, e, PairedIter.take_ok (h.looks hf) n xs (fun x hx => hp.mem_iff.1 hx), List.map_take]
  · rw [PairedIter.len, PairedIter.take_ok (h.looks hf) _ _ hm]
    simp only [bind, Except.bind, pure, Except.pure]
    rw [List.take_of_length_le (by simp)]
    simp
  · rw [PairedIter.take_ok (h.looks hf) k _ hm, List.map_take, List.map_drop]

theorem iterPairedList_refines (h : Repr m c) : ∃ d, m.iterPairedList = .ok d ∧ d.Perm c.pairs := by
  obtain ⟨d, hd, h2⟩ := iterPaired_take h
  obtain ⟨it, e, -, -, -⟩ := h2 (m.left.len + 1)
  refine ⟨d, ?_, hd⟩
  simp only [iterPairedList, e, bind, Except.bind, pure, Except.pure]
  rw [List.take_of_length_le]
  rw [hd.length_eq, ← lenLeft_refines h, lenLeft]; omega

/-! ### `UnpairedIter` -/

omit [EquivBEq L] [EquivBEq R] in
theorem UnpairedIter.take_spec (n : Nat) (ts : List (RightItem R)) :
    (UnpairedIter.take n ⟨ts⟩).1 = ((ts.filter fun t => t.pairs.isEmpty).map (·.value)).take n ∧
    ((UnpairedIter.take n ⟨ts⟩).2.todo.filter fun t => t.pairs.isEmpty).map (·.value) =
      ((ts.filter fun t => t.pairs.isEmpty).map (·.value)).drop n ∧
    (UnpairedIter.take n ⟨ts⟩).2.todo.length ≤ ts.length := by
  induction n generalizing ts with
  | zero => simp [UnpairedIter.take]
  | succ n ih =>
    suffices h : ∀ (o : List (RightItem R)), (∀ r it, UnpairedIter.next o = some (r, it) →
        (o.filter fun t => t.pairs.isEmpty).map (·.value) =
          r :: (it.todo.filter fun t => t.pairs.isEmpty).map (·.value) ∧ it.todo.length ≤ o.length) ∧
        (UnpairedIter.next o = none → (o.filter fun t => t.pairs.isEmpty) = []) by
      rw [UnpairedIter.take]
      cases hn : UnpairedIter.next ts with
      | none =>
        have := (h ts).2 hn
        simp only
        rw [this]; simp
      | some p =>
        obtain ⟨r, it⟩ := p
        obtain ⟨h1, h2⟩ := (h ts).1 r it hn
        obtain ⟨i1, i2, i3⟩ := ih it.todo
        simp only
        rw [h1]
        refine ⟨?_, ?_, ?_⟩
        · rw [List.take_succ_cons, ← i1]
        · rw [List.drop_succ_cons, ← i2]
        · exact Nat.le_trans i3 h2
    intro o
    induction o with
    | nil => simp [UnpairedIter.next]
    | cons t o ihh =>
      rw [UnpairedIter.next]
      cases ht : t.pairs.isEmpty
      · simp only [Bool.false_eq_true, if_false]
        rw [List.filter_cons_of_neg (by simp [ht])]
        refine ⟨fun r it hh => ?_, ihh.2⟩
        obtain ⟨a, b⟩ := ihh.1 r it hh
        exact ⟨a, by simp; omega⟩
      · simp only [if_true]
        rw [List.filter_cons_of_pos (by simp [ht])]
        refine ⟨fun r it hh => ?_, fun hh => by cases hh⟩
        obtain ⟨rfl, rfl⟩ : t.value = r ∧ ⟨o⟩ = it := by simpa using hh
        simp

theorem Abs.lone_perm {ys : List (RRec R)} (ha : Abs ls rs c) (h : Rep m ls rs) (hp : ys.Perm rs) :
    (((ys.map fun y => (toR m.hb y).2).filter fun t => t.pairs.isEmpty).map (·.value)).Perm (lone c) := by
  rw [lone]
  refine .trans ?_ (ha.rights.filter _).symm
  rw [List.filter_map, List.map_map, List.filter_map]
  refine .trans ((hp.filter _).map _) (.of_eq ?_)
  rw [List.filter_congr fun y hy => ?_]
  · rfl
  · simp only [Function.comp, toR]
    rw [ha.hasGroup_some h.wf hy (BEq.refl _)]; simp

/-- `iter_unpaired` after `n` calls of `next` -/
theorem iterUnpaired_take (h : ReprG G m c) : ∃ d : List R, d.Perm (lone c) ∧ ∀ n,
    (UnpairedIter.take n m.iterUnpaired).1 = d.take n ∧
    (UnpairedIter.take n m.iterUnpaired).2.len = (d.drop n).length ∧
    (d.drop n).length ≤ (UnpairedIter.take n m.iterUnpaired).2.sizeHint ∧
    ∀ k, (UnpairedIter.take k (UnpairedIter.take n m.iterUnpaired).2).1 = (d.drop n).take k := by
  obtain ⟨ls, rs, h, hf, ha⟩ := h
  obtain ⟨ys, hp, e⟩ := h.rightList
  refine ⟨_, ha.lone_perm h hp, fun n => ?_⟩
  rw [iterUnpaired, e]
  obtain ⟨h1, h2, h3⟩ := UnpairedIter.take_spec n (ys.map fun y => (toR m.hb y).2)
  generalize UnpairedIter.take n ⟨ys.map fun y => (toR m.hb y).2⟩ = q at *
  obtain ⟨q1, ⟨ts⟩⟩ := q
  simp only at h1 h2 h3 ⊢
  refine ⟨h1, ?_, ?_, fun k => ?_⟩
  · rw [UnpairedIter.len, (UnpairedIter.take_spec _ ts).1, ← h2, List.take_of_length_le]
    rw [List.length_map]
    exact Nat.le_succ_of_le (List.length_filter_le _ _)
  · rw [UnpairedIter.sizeHint, ← h2, List.length_map]
    exact List.length_filter_le _ _
  · rw [(UnpairedIter.take_spec k ts).1, ← h2]

theorem iterUnpairedList_refines (h : ReprG G m c) : m.iterUnpairedList.Perm (lone c) := by
  obtain ⟨d, hd, h2⟩ := iterUnpaired_take h
  rw [iterUnpairedList, (h2 _).1, List.take_of_length_le]
  · exact hd
  · rw [hd.length_eq, lone]
    refine Nat.le_trans (List.length_filter_le _ _) ?_
    rw [← lenRight_refines h, lenRight]; omega

/-! ### `Iter` -/

/-- a right record with its left records in the order of its set -/
abbrev Grp (L R : Type) := RRec R × List (LRec L R)

/-- what a group contributes to `iter` -/
def Grp.out (z : Grp L R) : List (Option L × R) :=
  match z.2 with
  | [] => [(none, z.1.r)]
  | x :: xs => (x :: xs).map fun x => (some x.l, x.r)

/-- what the iterator will still yield: the rest of the current group and the groups to come -/
def yields (qs : List (LRec L R)) (zs : List (Grp L R)) : List (Option L × R) :=
  qs.map (fun x => (some x.l, x.r)) ++ zs.flatMap Grp.out

/-- the iterator `it` is before the records `qs` of the current group and the groups `zs` -/
structure IterAt (m : GroupMap L R) (ls : List (LRec L R)) (it : Iter R) (qs : List (LRec L R)) (zs : List (Grp L R)) :
    Prop where
  cur : it.cur.getD [] = qs.map (key m.hb)
  todo : it.todo = zs.map fun z => (toR m.hb z.1).2
  mem : ∀ x ∈ qs, x ∈ ls
  grp : ∀ z ∈ zs, z.1.pairs.entries = z.2.map (key m.hb) ∧ ∀ x ∈ z.2, x ∈ ls ∧ x.r = z.1.r

omit [EquivBEq L] [EquivBEq R] in
/-- one step, in terms of the groups begun -/
theorem Iter.next_at (h : Looks m ls) {it : Iter R} {qs zs} (hi : IterAt m ls it qs zs) :
    (yields qs zs = [] ∧ it.next m = .ok none) ∨
    ∃ e it' qs', it.next m = .ok (some (e, it')) ∧
      ((qs.map (fun x => (some x.l, x.r)) = e :: qs'.map (fun x => (some x.l, x.r)) ∧ IterAt m ls it' qs' zs) ∨
       ∃ z zs', qs = [] ∧ zs = z :: zs' ∧ Grp.out z = e :: qs'.map (fun x => (some x.l, x.r)) ∧
         IterAt m ls it' qs' zs') := by
  cases qs with
  | cons x qs =>
    have hc : it.cur = some (key m.hb x :: qs.map (key m.hb)) := by
      have := hi.cur
      cases hcur : it.cur with
      | none => rw [hcur] at this; cases this
      | some k => rw [hcur] at this; simpa using this
    have hx := hi.mem x List.mem_cons_self
    obtain ⟨v, e, hr⟩ := h.getR x hx
    have e' : m.right.get (toL m.hb x).2.hash (rightWithRightId (toL m.hb x).2.rid) = some v := e
    refine .inr ⟨(some x.l, x.r), { it with cur := some (qs.map (key m.hb)) }, qs, ?_, .inl ⟨by simp,
      ⟨rfl, hi.todo, fun a ha => hi.mem a (List.mem_cons_of_mem _ ha), hi.grp⟩⟩⟩
    simp only [Iter.next, hc, h.getL x hx, e']
    simp [toL, toR, hr]
  | nil =>
    have hn : it.next m = .ok (it.nextRight m) := by
      have := hi.cur
      cases hcur : it.cur with
      | none => simp [Iter.next, hcur]
      | some k =>
        rw [hcur] at this
        obtain rfl : k = [] := by simpa using this
        simp [Iter.next, hcur]
    cases zs with
    | nil =>
      refine .inl ⟨rfl, ?_⟩
      rw [hn, Iter.nextRight, hi.todo]; rfl
    | cons z zs =>
      obtain ⟨hz1, hz2⟩ := hi.grp z List.mem_cons_self
      have hrest : ∀ w ∈ zs, w.1.pairs.entries = w.2.map (key m.hb) ∧ ∀ x ∈ w.2, x ∈ ls ∧ x.r = w.1.r :=
        fun w hw => hi.grp w (List.mem_cons_of_mem _ hw)
      obtain ⟨y, xs⟩ := z
      cases xs with
      | nil =>
        refine .inr ⟨(none, y.r), ⟨zs.map fun z => (toR m.hb z.1).2, it.cur⟩, [], ?_, .inr ⟨_, zs, rfl, rfl,
          by simp [Grp.out], ⟨hi.cur, rfl, by simp, hrest⟩⟩⟩
        rw [hn, Iter.nextRight, hi.todo]
        simp only [List.map_cons, toR] at hz1 ⊢
        simp [hz1]
      | cons x xs =>
        have hx := hz2 x List.mem_cons_self
        refine .inr ⟨(some x.l, x.r), ⟨zs.map fun z => (toR m.hb z.1).2, some (xs.map (key m.hb))⟩, xs,
          ?_, .inr ⟨_, zs, rfl, rfl, by simp [Grp.out],
          ⟨rfl, rfl, fun a ha => (hz2 a (List.mem_cons_of_mem _ ha)).1, hrest⟩⟩⟩
        have hg := h.getL x hx.1
        rw [hn, Iter.nextRight, hi.todo]
        simp only [List.map_cons, toR] at hz1 ⊢
        simp only [hz1, hg]
        simp [toL, hx.2]

omit [EquivBEq L] [EquivBEq R] in
theorem Iter.next_ok (h : Looks m ls) {it : Iter R} {qs zs} (hi : IterAt m ls it qs zs) :
    (yields qs zs = [] ∧ it.next m = .ok none) ∨
    ∃ e it' qs' zs', yields qs zs = e :: yields qs' zs' ∧ it.next m = .ok (some (e, it')) ∧ IterAt m ls it' qs' zs' := by
  rcases Iter.next_at h hi with h1 | ⟨e, it', qs', h2, ⟨h1, h3⟩ | ⟨z, zs', rfl, rfl, h1, h3⟩⟩
  · exact .inl h1
  · exact .inr ⟨e, it', qs', zs, by simp only [yields, h1, List.cons_append], h2, h3⟩
  · exact .inr ⟨e, it', qs', zs', by simp only [yields, List.map_nil, List.nil_append, List.flatMap_cons, h1,
      List.cons_append], h2, h3⟩

omit [EquivBEq L] [EquivBEq R] in
theorem Iter.take_ok (h : Looks m ls) (n : Nat) {it : Iter R} {qs zs} (hi : IterAt m ls it qs zs) :
    ∃ it' qs' zs', Iter.take m n it = .ok ((yields qs zs).take n, it') ∧ IterAt m ls it' qs' zs' ∧
      yields qs' zs' = (yields qs zs).drop n := by
  induction n generalizing it qs zs with
  | zero => exact ⟨it, qs, zs, by simp [Iter.take], hi, by simp⟩
  | succ n ih =>
    rcases Iter.next_ok h hi with ⟨h1, h2⟩ | ⟨e, it', qs', zs', h1, h2, h3⟩
    · refine ⟨it, qs, zs, ?_, hi, by simp [h1]⟩
      simp [Iter.take, h2, h1, bind, Except.bind, pure, Except.pure]
    · obtain ⟨it2, qs2, zs2, i1, i2, i3⟩ := ih h3
      refine ⟨it2, qs2, zs2, ?_, i2, by rw [i3, h1, List.drop_succ_cons]⟩
      simp [Iter.take, h2, h1, i1, bind, Except.bind, pure, Except.pure]

theorem IterAt.clone {it : Iter R} {qs zs} (hi : IterAt m ls it qs zs) : IterAt m ls it.clone [] zs :=
  ⟨rfl, hi.todo, by simp, hi.grp⟩

omit [EquivBEq L] [EquivBEq R] in
theorem IterAt.fuel {it : Iter R} {qs zs} (hi : IterAt m ls it qs zs) : (yields qs zs).length ≤ it.fuel := by
  rw [yields, List.length_append, List.length_map, Iter.fuel, hi.cur, List.length_map, hi.todo]
  refine Nat.add_le_add_left ?_ _
  have := hi.grp
  clear hi
  induction zs with
  | nil => simp
  | cons z zs ih =>
    obtain ⟨y, xs⟩ := z
    have h1 := (this (y, xs) List.mem_cons_self).1
    have h2 := ih fun w hw => this w (List.mem_cons_of_mem _ hw)
    simp only [List.flatMap_cons, List.length_append, List.map_cons, List.sum_cons]
    have : (Grp.out (y, xs)).length ≤ y.pairs.len + 1 := by
      rw [RawTable.len, h1]
      cases xs <;> simp [Grp.out]
    have h3 : (toR m.hb y).2.pairs.len = y.pairs.len := rfl
    omega

/-- the records are those of the groups -/
theorem WF.groups {hb : BuildHasher L R} {lc rc : Nat} (h : WF hb lc rc ls rs) :
    ls.Perm (rs.flatMap fun y => mine ls y.id) := by
  induction rs generalizing ls with
  | nil =>
    cases ls with
    | nil => simp
    | cons x ls => obtain ⟨y, hy, -⟩ := h.owner x List.mem_cons_self; cases hy
  | cons y rs ih =>
    have := ih h.dropRight
    rw [List.flatMap_cons]
    refine (List.filter_append_perm (fun x : LRec L R => x.own == y.id) ls).symm.trans (List.Perm.append_left _ ?_)
    refine this.trans (.of_eq ?_)
    rw [List.flatMap_def, List.flatMap_def]
    congr 1
    refine List.map_congr_left fun a ha => ?_
    rw [mine, mine, List.filter_filter]
    refine List.filter_congr fun x _ => ?_
    have hne := (h.tailR a ha).1
    cases hc : x.own == a.id
    · rfl
    · simp at hc; simp [hc, Ne.symm hne]

/-- choosing for every right record its left records in the order of its set -/
theorem exists_groups {hb : BuildHasher L R} {lc rc : Nat} (h : WF hb lc rc ls rs) (ys : List (RRec R))
    (hy : ∀ y ∈ ys, y ∈ rs) :
    ∃ zs : List (Grp L R), zs.map (·.1) = ys ∧ ∀ z ∈ zs, z.1 ∈ rs ∧ z.1.pairs.entries = z.2.map (key hb) ∧
      z.2.Perm (mine ls z.1.id) := by
  induction ys with
  | nil => exact ⟨[], rfl, by simp⟩
  | cons y ys ih =>
    obtain ⟨zs, h1, h2⟩ := ih fun a ha => hy a (List.mem_cons_of_mem _ ha)
    obtain ⟨qs, hq, e⟩ := perm_map_inv (h.pairs y (hy y List.mem_cons_self))
    refine ⟨(y, qs) :: zs, by simp [h1], ?_⟩
    intro z hz
    rcases List.mem_cons.1 hz with rfl | hz
    · exact ⟨hy y List.mem_cons_self, e, hq.symm⟩
    · exact h2 z hz

omit [EquivBEq L] [EquivBEq R] in
theorem out_perm (zs : List (Grp L R)) : (zs.flatMap Grp.out).Perm
    ((zs.flatMap (·.2)).map (fun x => (some x.l, x.r)) ++ (zs.filter fun z => z.2.isEmpty).map fun z => (none, z.1.r)) := by
  induction zs with
  | nil => simp
  | cons z zs ih =>
    obtain ⟨y, xs⟩ := z
    cases xs with
    | nil =>
      simp only [List.flatMap_cons, Grp.out, List.nil_append]
      rw [List.filter_cons_of_pos (by rfl), List.map_cons]
      exact (ih.cons _).trans List.perm_middle.symm
    | cons x xs =>
      simp only [List.flatMap_cons, Grp.out]
      rw [List.filter_cons_of_neg (by simp), List.map_append, List.append_assoc]
      exact ih.append_left _

theorem flatMap_perm {α β : Type} {f g : α → List β} {l : List α} (h : ∀ a ∈ l, (f a).Perm (g a)) :
    (l.flatMap f).Perm (l.flatMap g) := by
  induction l with
  | nil => simp
  | cons a l ih =>
    rw [List.flatMap_cons, List.flatMap_cons]
    exact (h a List.mem_cons_self).append (ih fun b hb => h b (List.mem_cons_of_mem _ hb))

/-- where `iter` starts -/
theorem iter_at (h : Rep m ls rs) (ha : Abs ls rs c) :
    ∃ zs : List (Grp L R), IterAt m ls m.iter [] zs ∧ (yields [] zs).Perm (entries c) := by
  obtain ⟨ys, hp, e⟩ := h.rightList
  obtain ⟨zs, h1, h2⟩ := exists_groups h.wf ys fun y hy => hp.mem_iff.1 hy
  have hfst : ys.map (fun y => (toR m.hb y).2) = zs.map fun z => (toR m.hb z.1).2 := by
    rw [← h1, List.map_map]; rfl
  refine ⟨zs, ⟨rfl, by rw [iter, e, hfst], by simp, fun z hz => ?_⟩, ?_⟩
  · obtain ⟨z1, z2, z3⟩ := h2 z hz
    refine ⟨z2, fun x hx => ?_⟩
    have hx' := List.mem_filter.1 (z3.mem_iff.1 hx)
    refine ⟨hx'.1, ?_⟩
    obtain ⟨w, hw, e1, e2⟩ := h.wf.owner x hx'.1
    have : x.own = z.1.id := by simpa using hx'.2
    rw [← e2, h.wf.sameR hw z1 (by rw [e1, this])]
  · rw [yields, List.map_nil, List.nil_append, entries]
    refine (out_perm zs).trans (.append ?_ ?_)
    · refine .trans ?_ (ha.pairs.map _).symm
      rw [List.map_map]
      refine List.Perm.map _ ?_
      refine (flatMap_perm fun z hz => (h2 z hz).2.2).trans ?_
      refine .trans ?_ h.wf.groups.symm
      refine .trans (.of_eq ?_) (hp.flatMap_right _)
      rw [← h1, List.flatMap_map]
    · have hl := (ha.lone_perm h hp).map fun r => ((none, r) : Option L × R)
      refine .trans (.of_eq ?_) hl
      rw [← h1, List.map_map, List.filter_map, List.map_map, List.filter_map, List.map_map]
      rw [List.filter_congr fun z hz => ?_]
      · rfl
      · simp only [Function.comp, toR, PairSet.isEmpty, (h2 z hz).2.1]
        cases z.2 <;> rfl

theorem Grp.out_ne (z : Grp L R) : Grp.out z ≠ [] := by
  obtain ⟨y, xs⟩ := z
  cases xs <;> simp [Grp.out]

theorem Iter.take_at (h : Looks m ls) (n : Nat) {it : Iter R} {qs zs} (hi : IterAt m ls it qs zs) :
    ∃ it' qs' j, Iter.take m n it = .ok ((yields qs zs).take n, it') ∧ IterAt m ls it' qs' (zs.drop j) ∧
      yields qs' (zs.drop j) = (yields qs zs).drop n ∧ j ≤ zs.length ∧
      (j = 0 ∨ (yields qs (zs.take (j - 1))).length < n) := by
  induction n generalizing it qs zs with
  | zero => exact ⟨it, qs, 0, by simp [Iter.take], by simpa using hi, by simp, by simp, .inl rfl⟩
  | succ n ih =>
    rcases Iter.next_at h hi with ⟨h1, h2⟩ | ⟨e, it', qs', h2, ⟨h1, h3⟩ | ⟨z, zs', rfl, rfl, h1, h3⟩⟩
    · refine ⟨it, qs, 0, ?_, by simpa using hi, by simp [h1], by simp, .inl rfl⟩
      simp [Iter.take, h2, h1, bind, Except.bind, pure, Except.pure]
    · obtain ⟨it2, qs2, j, i1, i2, i3, i4, i5⟩ := ih h3
      have hy : ∀ ws, yields qs ws = e :: yields qs' ws := by intro ws; simp only [yields, h1, List.cons_append]
      refine ⟨it2, qs2, j, ?_, i2, by rw [i3, hy, List.drop_succ_cons], i4, ?_⟩
      · simp [Iter.take, h2, hy, i1, bind, Except.bind, pure, Except.pure]
      · refine i5.imp id fun i5 => ?_
        rw [hy, List.length_cons]; omega
    · obtain ⟨it2, qs2, j, i1, i2, i3, i4, i5⟩ := ih h3
      have hy : ∀ ws, yields [] (z :: ws) = e :: yields qs' ws := by
        intro ws; simp only [yields, List.map_nil, List.nil_append, List.flatMap_cons, h1, List.cons_append]
      refine ⟨it2, qs2, j + 1, ?_, i2, by rw [List.drop_succ_cons, i3, hy, List.drop_succ_cons], by simpa using i4, .inr ?_⟩
      · simp [Iter.take, h2, hy, i1, bind, Except.bind, pure, Except.pure]
      · cases j with
        | zero => simp [yields]
        | succ j =>
          have i5 : (yields qs' (zs'.take j)).length < n := by simpa using i5
          simp only [Nat.add_sub_cancel, List.take_succ_cons, hy, List.length_cons]; omega

/-- `iter` yields one right item after the other, with its left items; a clone, `len` and `size_hint` do not see
what is left of the group of the current right item, and `size_hint` counts right items. -/
theorem iter_take (h : Repr m c) : ∃ gs : List (List (Option L × R)), gs.flatten.Perm (entries c) ∧
    gs.length = c.rights.length ∧ (∀ g ∈ gs, g ≠ [] ∧ ∃ r, ∀ e ∈ g, e.2 = r) ∧ m.iterList = .ok gs.flatten ∧
    ∀ n, ∃ (it : Iter R) (j : Nat),
      Iter.take m n m.iter = .ok (gs.flatten.take n, it) ∧ j ≤ gs.length ∧
      (j = 0 ∨ (gs.take (j - 1)).flatten.length < n) ∧ (n ≤ (gs.take j).flatten.length ∨ j = gs.length) ∧
      (∀ k, ∃ it', Iter.take m k it = .ok ((gs.flatten.drop n).take k, it')) ∧
      (∀ k, ∃ it', Iter.take m k it.clone = .ok ((gs.drop j).flatten.take k, it')) ∧
      it.len m = .ok (gs.drop j).flatten.length ∧ it.sizeHint = (gs.drop j).length := by
  have hrights := lenRight_refines h
  obtain ⟨ls, rs, h, hf, ha⟩ := h
  have hf := hf trivial
  obtain ⟨zs, hi, hp⟩ := iter_at h ha
  have hfl : ∀ ws : List (Grp L R), yields [] ws = (ws.map Grp.out).flatten := by
    intro ws; simp [yields, List.flatMap_def]
  have hlen : zs.length = c.rights.length := by
    rw [← hrights]
    have := congrArg List.length hi.todo
    rw [List.length_map] at this
    rw [← this, lenRight, RawTable.len, iter, RawTable.toList, List.length_map]
  refine ⟨zs.map Grp.out, hfl zs ▸ hp, by rw [List.length_map, hlen], ?_, ?_, fun n => ?_⟩
  · intro g hg
    obtain ⟨⟨y, xs⟩, hz, rfl⟩ := List.mem_map.1 hg
    refine ⟨Grp.out_ne _, y.r, ?_⟩
    cases xs with
    | nil => simp [Grp.out]
    | cons x xs =>
      intro e he
      obtain ⟨a, ha, rfl⟩ := List.mem_map.1 (show e ∈ (x :: xs).map fun x => (some x.l, x.r) from he)
      exact ((hi.grp _ hz).2 a ha).2
  · obtain ⟨it2, -, -, e2, -⟩ := Iter.take_ok (h.looks hf) (m.iter.fuel + 1) hi
    have := hi.fuel
    simp only [iterList, e2, bind, Except.bind, pure, Except.pure]
    rw [List.take_of_length_le (by omega), hfl]
  · obtain ⟨it, qs', j, e, hi', hy, hj, hb⟩ := Iter.take_at (h.looks hf) n hi
    rw [hfl] at e
    have hd : (zs.map Grp.out).drop j = (zs.drop j).map Grp.out := by rw [List.map_drop]
    refine ⟨it, j, e, by simpa using hj, ?_, ?_, fun k => ?_, fun k => ?_, ?_, ?_⟩
    · refine hb.imp id fun hb => ?_
      rw [hfl, List.map_take] at hb; exact hb
    · rcases Nat.lt_or_ge (((zs.map Grp.out).take j).flatten.length) n with hlt | hge
      · refine .inr ?_
        have hlen2 := congrArg List.length hy
        rw [List.length_drop, hfl zs] at hlen2
        have hsplit : (zs.map Grp.out).flatten.length =
            ((zs.map Grp.out).take j).flatten.length + ((zs.map Grp.out).drop j).flatten.length := by
          rw [← List.length_append, ← List.flatten_append, List.take_append_drop]
        have hy2 : (yields qs' (zs.drop j)).length = qs'.length + ((zs.map Grp.out).drop j).flatten.length := by
          rw [hd]; simp [yields, List.flatMap_def]
        have hz : ((zs.map Grp.out).drop j).flatten.length = 0 := by omega
        rw [List.length_eq_zero_iff, hd] at hz
        cases hz' : zs.drop j with
        | nil =>
          have := List.drop_eq_nil_iff.1 hz'
          simp; omega
        | cons z ws =>
          rw [hz', List.map_cons, List.flatten_cons] at hz
          exact absurd (List.append_eq_nil_iff.1 hz).1 (Grp.out_ne z)
      · exact .inl hge
    · obtain ⟨it2, -, -, e2, -⟩ := Iter.take_ok (h.looks hf) k hi'
      exact ⟨it2, by rw [e2, hy, hfl]⟩
    · obtain ⟨it2, -, -, e2, -⟩ := Iter.take_ok (h.looks hf) k hi'.clone
      exact ⟨it2, by rw [e2, hfl, hd]⟩
    · obtain ⟨it2, -, -, e2, -⟩ := Iter.take_ok (h.looks hf) (it.clone.fuel + 1) hi'.clone
      have := hi'.clone.fuel
      simp only [Iter.len, e2, bind, Except.bind, pure, Except.pure]
      rw [List.take_of_length_le (by omega), hfl, hd]
    · rw [Iter.sizeHint, hi'.todo, List.length_map, hd, List.length_map]

theorem iterList_refines (h : Repr m c) : ∃ d, m.iterList = .ok d ∧ d.Perm (entries c) := by
  obtain ⟨ls, rs, h, hf, ha⟩ := h
  have hf := hf trivial
  obtain ⟨zs, hi, hp⟩ := iter_at h ha
  obtain ⟨it2, -, -, e2, -⟩ := Iter.take_ok (h.looks hf) (m.iter.fuel + 1) hi
  have := hi.fuel
  refine ⟨yields [] zs, ?_, hp⟩
  simp only [iterList, e2, bind, Except.bind, pure, Except.pure]
  rw [List.take_of_length_le (by omega)]

theorem ReprG.shows (h : Repr m c) : Shows m c where
  sound := h.sound
  iter := iterList_refines h
  iterPaired := iterPairedList_refines h
  iterUnpaired := iterUnpairedList_refines h
  iterLeft := iterLeft_refines h
  iterRight := iterRight_refines h
  lenLeft := lenLeft_refines h
  lenRight := lenRight_refines h
  isEmpty := isEmpty_refines h
  getRight := getRight_refines h
  getLeft := getLeftList_refines h
  containsLeft := containsLeft_refines h
  containsRight := containsRight_refines h
  isRightPaired := isRightPaired_refines h
  arePaired := arePaired_refines h

end Verif.GroupMap
