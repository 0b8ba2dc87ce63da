import Verif.GroupMap.Iterate
/-! Retaining, equality, cloning and extension of `GroupMap`. -/
set_option linter.unusedSectionVars false
set_option linter.unusedSimpArgs false
namespace Verif.GroupMap
open GroupSpec
open CycleSpec (split)

theorem split_mapped {σ α β : Type} (f : σ → β → Bool × σ) (g : α → β) (as : List α) (s : σ) :
    split f (as.map g) s = ((split (fun s a => f s (g a)) as s).1.map g, (split (fun s a => f s (g a)) as s).2.1.map g,
      (split (fun s a => f s (g a)) as s).2.2) := by
  induction as generalizing s with
  | nil => rfl
  | cons a as ih =>
    cases hf : f s (g a) with
    | mk b s' => cases b <;> simp [split, hf, ih s']

theorem split_perm {σ α : Type} (f : σ → α → Bool × σ) (as : List α) (s : σ) :
    ((split f as s).1 ++ (split f as s).2.1).Perm as := by
  induction as generalizing s with
  | nil => simp [split]
  | cons a as ih =>
    cases hf : f s a with
    | mk b s' =>
      cases b with
      | true => simp only [split, hf]; exact (ih s').cons _
      | false => simp only [split, hf]; exact List.perm_middle.trans ((ih s').cons _)

/-- what is never accepted is rejected -/
theorem split_none {σ α : Type} {f : σ → α → Bool × σ} {as : List α} (h : ∀ a ∈ as, ∀ s, (f s a).1 = false) (s : σ) :
    (split f as s).1 = [] ∧ (split f as s).2.1 = as := by
  induction as generalizing s with
  | nil => exact ⟨rfl, rfl⟩
  | cons a as ih =>
    have ih := ih fun b hb => h b (List.mem_cons_of_mem _ hb)
    have ha := h a List.mem_cons_self s
    cases hf : f s a with
    | mk b s' =>
      rw [hf] at ha
      subst ha
      simp only [split, hf]
      exact ⟨(ih s').1, by rw [(ih s').2]⟩

variable [RawImpl] [LawfulRaw] {L R : Type} [BEq L] [BEq R] [EquivBEq L] [EquivBEq R]
variable {G : Prop} {m : GroupMap L R} {c : Contents L R} {ls : List (LRec L R)} {rs : List (RRec R)}

/-! ### `retain_unpaired` -/

theorem retainUnpairedScan_eq {σ : Type} (h : Rep m ls rs) (f : σ → R → Bool × σ) (s : σ) (ys : List (RRec R))
    (hy : ∀ y ∈ ys, y ∈ rs) :
    m.retainUnpairedScan f (ys.map (·.r)) s =
      .ok ((split (fun s (y : RRec R) => f s y.r) ys s).1.map (fun y => (m.hb.hr y.r, y.id)),
        (split (fun s (y : RRec R) => f s y.r) ys s).2.2) := by
  induction ys generalizing s with
  | nil => rfl
  | cons y ys ih =>
    have ih := fun s => ih s fun b hb => hy b (List.mem_cons_of_mem _ hb)
    cases hf : f s y.r with
    | mk b s' =>
      cases b with
      | false => simp only [List.map_cons, retainUnpairedScan, hf, split]; exact ih s'
      | true =>
        obtain ⟨rs', hp⟩ := perm_cons_of_mem (hy y List.mem_cons_self)
        have h := h.perm (.refl _) hp
        have e : m.getRightInnerWithHash y.r (m.hb.hr y.r) = some (toR m.hb y).2 :=
          getR_eq h.consR BEq.rfl (h.wf.othersR BEq.rfl)
        simp only [List.map_cons, retainUnpairedScan, hf, split, e, ih s', bind, Except.bind, pure, Except.pure, toR]

theorem retainUnpairedDrop_rep (ys : List (RRec R)) (h : Rep m ls (ys ++ rs)) (he : ∀ y ∈ ys, y.pairs.entries = []) :
    ∃ m', m.retainUnpairedDrop (ys.map fun y => (m.hb.hr y.r, y.id)) = .ok m' ∧ Rep m' ls rs ∧ m'.hb = m.hb ∧
      m'.leftCounter = m.leftCounter ∧ m'.rightCounter = m.rightCounter := by
  induction ys generalizing m with
  | nil => exact ⟨m, rfl, h, rfl, rfl, rfl⟩
  | cons y ys ih =>
    obtain ⟨ks, m1, e, -, h1, e1, e2, e3⟩ := removeViaHashAndId_some h
    have hdrop : (ls.filter fun x => !(x.own == y.id)) = ls := by
      rw [List.filter_eq_self]
      intro x hx
      have := (h.wf.mem_pairs hx List.mem_cons_self (y := y)).2
      rw [he y List.mem_cons_self] at this
      simpa using this
    rw [hdrop] at h1
    obtain ⟨m', e', h', e1', e2', e3'⟩ := ih h1 fun b hb => he b (List.mem_cons_of_mem _ hb)
    refine ⟨m', ?_, h', e1'.trans e1, e2'.trans e2, e3'.trans e3⟩
    rw [e1] at e'
    simp only [List.map_cons, retainUnpairedDrop, e, bind, Except.bind]
    exact e'

theorem retainUnpaired_ordered {σ : Type} (h : ReprG G m c) (f : σ → R → Bool × σ) (s : σ) :
    ∃ m' : GroupMap L R, m.iterUnpairedList.Perm (lone c) ∧
      m.retainUnpaired f s = .ok ((split f m.iterUnpairedList s).2.2, m') ∧
      ReprG G m' ⟨(split f m.iterUnpairedList s).2.1 ++ c.rights.filter (hasGroup c), c.pairs⟩ ∧ m'.hb = m.hb ∧
      m'.leftCounter = m.leftCounter ∧ m'.rightCounter = m.rightCounter := by
  have hl := iterUnpairedList_refines h
  obtain ⟨ls, rs, h, hf, ha⟩ := h
  obtain ⟨ys, hp, e⟩ := h.rightList
  have hlist : m.iterUnpairedList = (ys.filter fun y => y.pairs.isEmpty).map (·.r) := by
    rw [iterUnpairedList, iterUnpaired, e, (UnpairedIter.take_spec _ _).1, List.take_of_length_le]
    · rw [List.filter_map, List.map_map]; rfl
    · rw [List.filter_map, List.length_map, List.length_map]
      refine Nat.le_trans (List.length_filter_le _ _) ?_
      have := h.right.length_eq
      simp only [List.length_map] at this
      rw [RawTable.len, this, hp.length_eq]; omega
  generalize hz : (ys.filter fun y => y.pairs.isEmpty) = zs at hlist
  have hzs : ∀ y ∈ zs, y ∈ rs ∧ y.pairs.entries = [] := by
    intro y hy
    rw [← hz] at hy
    have := List.mem_filter.1 hy
    exact ⟨hp.mem_iff.1 this.1, by simpa [PairSet.isEmpty] using this.2⟩
  have e1 := retainUnpairedScan_eq h f s zs fun y hy => (hzs y hy).1
  have hsp := split_perm (fun s (y : RRec R) => f s y.r) zs s
  have hms := split_mapped f (fun y : RRec R => y.r) zs s
  generalize split (fun s (y : RRec R) => f s y.r) zs s = q at e1 hsp hms
  obtain ⟨as, ks, s'⟩ := q
  simp only at e1 hsp hms
  have hrs : rs.Perm (as ++ (ks ++ rs.filter fun y => !y.pairs.isEmpty)) := by
    rw [← List.append_assoc]
    refine .trans ?_ (hsp.symm.append_right _)
    refine (List.filter_append_perm (fun y : RRec R => y.pairs.isEmpty) rs).symm.trans (.append_right _ ?_)
    rw [← hz]; exact (hp.filter _).symm
  have h0 := h
  have h := h.perm (.refl _) hrs
  obtain ⟨m', e2, h', e3, e4, e5⟩ := retainUnpairedDrop_rep as h fun y hy =>
    (hzs y (hsp.mem_iff.1 (List.mem_append_left _ hy))).2
  refine ⟨m', hl, ?_, ⟨ls, _, h', hf, ?_, ha.pairs⟩, e3, e4, e5⟩
  · rw [retainUnpaired, hlist]
    simp only [e1, e2, hms, bind, Except.bind, pure, Except.pure]
  · rw [hlist, hms, List.map_append]
    refine .append_left _ ?_
    refine (ha.rights.filter _).trans ?_
    rw [List.filter_map]
    refine .of_eq (congrArg _ (List.filter_congr fun y hy => ?_))
    simp only [Function.comp]
    rw [ha.hasGroup_some h0.wf hy BEq.rfl]

theorem retainUnpaired_refines {σ : Type} (h : ReprG G m c) (f : σ → R → Bool × σ) (s : σ) :
    ∃ (d : List R) (m' : GroupMap L R), d.Perm (lone c) ∧ m.retainUnpaired f s = .ok ((split f d s).2.2, m') ∧
      ReprG G m' ⟨(split f d s).2.1 ++ c.rights.filter (hasGroup c), c.pairs⟩ ∧ m'.hb = m.hb ∧
      m'.leftCounter = m.leftCounter ∧ m'.rightCounter = m.rightCounter :=
  ⟨_, retainUnpaired_ordered h f s⟩

/-! ### `retain_paired` -/

theorem retainPairedScan_eq {σ : Type} (h : Rep m ls rs) (f : σ → L → R → Bool × σ) (s : σ) (xs : List (LRec L R))
    (hx : ∀ x ∈ xs, x ∈ ls) :
    m.retainPairedScan f (xs.map fun x => (x.l, x.r)) s =
      .ok ((split (fun s (x : LRec L R) => f s x.l x.r) xs s).1.map (key m.hb),
        (split (fun s (x : LRec L R) => f s x.l x.r) xs s).2.2) := by
  induction xs generalizing s with
  | nil => rfl
  | cons x xs ih =>
    have ih := fun s => ih s fun b hb => hx b (List.mem_cons_of_mem _ hb)
    cases hf : f s x.l x.r with
    | mk b s' =>
      cases b with
      | false => simp only [List.map_cons, retainPairedScan, hf, split]; exact ih s'
      | true =>
        obtain ⟨ls', hp⟩ := perm_cons_of_mem (hx x List.mem_cons_self)
        have h := h.perm hp (.refl _)
        have e : m.getLeftInnerWithHash x.l (m.hb.hl x.l) = some (toL m.hb x).2 :=
          getL_eq h.consL BEq.rfl (h.wf.others BEq.rfl)
        simp only [List.map_cons, retainPairedScan, hf, split, e, ih s', bind, Except.bind, pure, Except.pure, toL, key]

theorem retainPairedDrop_ok {hb : BuildHasher L R} (xs ls : List (LRec L R)) (t : RawTable (LeftItem L))
    (ht : t.entries.Perm ((xs ++ ls).map (toL hb))) (ha : (xs ++ ls).Pairwise ApartL) :
    (retainPairedDrop t (xs.map (key hb))).entries.Perm (ls.map (toL hb)) := by
  induction xs generalizing t with
  | nil => exact ht
  | cons x xs ih =>
    have ha' := List.pairwise_cons.1 ha
    obtain ⟨t1, e1, p1⟩ := removeL_id (hb := hb) (x := x) (ls := xs ++ ls) ht fun a h => (ha'.1 a h).1.symm
    simp only [List.map_cons, retainPairedDrop, key, e1]
    exact ih t1 p1 ha'.2

/-- The map after some left items went while the right items still refer to them: `ds` are the records of the
left items gone. -/
structure Dangling (m : GroupMap L R) (ls ds : List (LRec L R)) (rs : List (RRec R)) : Prop where
  left : m.left.entries.Perm (ls.map (toL m.hb))
  right : m.right.entries.Perm (rs.map (toR m.hb))
  wf : WF m.hb m.leftCounter m.rightCounter (ls ++ ds) rs

theorem retainPaired_ordered {σ : Type} (h : Rep m ls rs) (hf : Fresh ls) (f : σ → L → R → Bool × σ) (s : σ) :
    ∃ (xs : List (LRec L R)) (t : RawTable (LeftItem L)), xs.Perm ls ∧ m.left.toList = xs.map (fun x => (toL m.hb x).2) ∧
      m.iterPairedList = .ok (xs.map fun x => (x.l, x.r)) ∧
      m.retainPaired f s = .ok ((split (fun s (x : LRec L R) => f s x.l x.r) xs s).2.2, { m with left := t }) ∧
      Dangling { m with left := t } (split (fun s (x : LRec L R) => f s x.l x.r) xs s).2.1
        (split (fun s (x : LRec L R) => f s x.l x.r) xs s).1 rs := by
  obtain ⟨xs, hp, e⟩ := h.leftList
  have hlist : m.iterPairedList = .ok (xs.map fun x => (x.l, x.r)) := by
    have := PairedIter.take_ok (h.looks hf) (m.left.len + 1) xs fun x hx => hp.mem_iff.1 hx
    simp only [iterPairedList, iterPaired, e, this, bind, Except.bind, pure, Except.pure]
    rw [List.take_of_length_le]
    have := h.left.length_eq
    simp only [List.length_map] at this
    rw [RawTable.len, this, hp.length_eq]; omega
  have e1 := retainPairedScan_eq h f s xs fun x hx => hp.mem_iff.1 hx
  have hsp := split_perm (fun s (x : LRec L R) => f s x.l x.r) xs s
  have hls := (hsp.trans hp).symm
  have h' := h.perm hls (.refl _)
  refine ⟨xs, _, hp, e, hlist, ?_, ⟨retainPairedDrop_ok _ _ m.left h'.left h'.wf.apartL, h.right,
    h.wf.perm (hls.trans List.perm_append_comm) (.refl _)⟩⟩
  simp only [retainPaired, hlist, e1, bind, Except.bind, pure, Except.pure]

theorem retainPaired_records {σ : Type} (h : Rep m ls rs) (hf : Fresh ls) (f : σ → L → R → Bool × σ) (s : σ) :
    ∃ (xs : List (LRec L R)) (t : RawTable (LeftItem L)), xs.Perm ls ∧
      m.retainPaired f s = .ok ((split (fun s (x : LRec L R) => f s x.l x.r) xs s).2.2, { m with left := t }) ∧
      Dangling { m with left := t } (split (fun s (x : LRec L R) => f s x.l x.r) xs s).2.1
        (split (fun s (x : LRec L R) => f s x.l x.r) xs s).1 rs := by
  obtain ⟨xs, t, h1, -, -, h2⟩ := retainPaired_ordered h hf f s
  exact ⟨xs, t, h1, h2⟩

theorem retainPaired_refines {σ : Type} (h : Repr m c) (f : σ → L → R → Bool × σ) (s : σ)
    (hs : ∀ p ∈ c.pairs, ∀ s, (f s p.1 p.2).1 = false) :
    ∃ (d : List (L × R)) (m' : GroupMap L R), d.Perm c.pairs ∧
      m.retainPaired f s = .ok ((split (fun s p => f s p.1 p.2) d s).2.2, m') ∧ Repr m' c ∧ m'.hb = m.hb ∧
      m'.leftCounter = m.leftCounter ∧ m'.rightCounter = m.rightCounter := by
  obtain ⟨ls, rs, h, hf, ha⟩ := h
  have hf := hf trivial
  obtain ⟨xs, t, hp, e, hd⟩ := retainPaired_records h hf f s
  have hn : ∀ x ∈ xs, ∀ s, (f s x.l x.r).1 = false := fun x hx =>
    hs (x.l, x.r) (ha.pairs.mem_iff.2 (List.mem_map.2 ⟨x, hp.mem_iff.1 hx, rfl⟩))
  obtain ⟨n1, n2⟩ := split_none (f := fun s (x : LRec L R) => f s x.l x.r) hn s
  refine ⟨xs.map fun x => (x.l, x.r), { m with left := t }, (hp.map _).trans ha.pairs.symm, ?_, ⟨ls, rs, ?_, fun _ => hf, ha⟩,
    rfl, rfl, rfl⟩
  · rw [e, split_mapped]
  · rw [n1, n2] at hd
    exact ⟨hd.left.trans (hp.map _), hd.right, h.wf⟩

/-! ### Equality -/

theorem eqLoop_ok (h : Looks m ls) (other : GroupMap L R) (n : Nat) {it : Iter R} {qs zs}
    (hi : IterAt m ls it qs zs) : eqLoop m other n it = .ok (((yields qs zs).take n).all (eqEntry other)) := by
  induction n generalizing it qs zs with
  | zero => simp [eqLoop]
  | succ n ih =>
    rcases Iter.next_ok h hi with ⟨h1, h2⟩ | ⟨e, it', qs', zs', h1, h2, h3⟩
    · simp [eqLoop, h2, h1, bind, Except.bind, pure, Except.pure]
    · simp only [eqLoop, h2, h1, bind, Except.bind, pure, Except.pure, List.take_succ_cons, List.all_cons, ih h3]
      cases eqEntry other e <;> simp

theorem eq_refines {m' : GroupMap L R} {c' : Contents L R} (h : Repr m c) (h' : Repr m' c') :
    m.eq m' = .ok (!(c.pairs.length != c'.pairs.length && c.rights.length != c'.rights.length) &&
      (c.pairs.all (fun p => hasPair c' p.1 p.2) && (lone c).all fun r => !hasGroup c' r)) := by
  rw [eq, lenLeft_refines h, lenLeft_refines h', lenRight_refines h, lenRight_refines h']
  split
  · next hc => rw [hc]; rfl
  · next hc =>
    rw [eq_false_of_ne_true' hc]
    obtain ⟨ls, rs, h, hf, ha⟩ := h
    have hf := hf trivial
    obtain ⟨zs, hi, hp⟩ := iter_at h ha
    rw [eqLoop_ok (h.looks hf) m' _ hi]
    have := hi.fuel
    rw [List.take_of_length_le (by omega), all_eq_of_perm hp, entries, List.all_append, List.all_map, List.all_map]
    simp only [Bool.not_false, Bool.true_and]
    congr 2
    · refine congrArg _ (funext fun p => ?_)
      exact arePaired_refines h' _ _
    · refine congrArg _ (funext fun r => ?_)
      simp only [Function.comp, eqEntry]
      rw [isRightPaired_refines h']

/-! ### Cloning -/

/-- the clone of the record of a left item -/
def cloneL (cl : L → L) (cr : R → R) (x : LRec L R) : LRec L R := { x with l := cl x.l, r := cr x.r }

/-- the clone of the record of a right item -/
def cloneR (cr : R → R) (y : RRec R) : RRec R := { y with r := cr y.r }

theorem Rep.clone (h : Rep m ls rs) {cl : L → L} {cr : R → R} (hl : ∀ x, (cl x == x) = true)
    (hr : ∀ x, (cr x == x) = true) : Rep (m.clone cl cr) (ls.map (cloneL cl cr)) (rs.map (cloneR cr)) := by
  have hlb : ∀ a b : L, (cl a == cl b) = (a == b) := fun a b => by rw [BEq.congr_left (hl a), BEq.congr_right (hl b)]
  have hrb : ∀ a b : R, (cr a == cr b) = (a == b) := fun a b => by rw [BEq.congr_left (hr a), BEq.congr_right (hr b)]
  have hmine : ∀ i, mine (ls.map (cloneL cl cr)) i =
      (mine ls i).map (cloneL cl cr) := fun i => by
    rw [mine, mine, List.filter_map]; rfl
  refine ⟨?_, ?_, ?_, ?_, ?_, ?_, ?_, ?_⟩
  · refine (h.left.map _).trans (.of_eq ?_)
    rw [List.map_map, List.map_map]
    refine List.map_congr_left fun x _ => ?_
    simp only [Function.comp, toL, LeftItem.clone, GroupMap.clone, cloneL, m.hb.hl_congr _ _ (hl x.l), m.hb.hr_congr _ _ (hr x.r)]
  · refine (h.right.map _).trans (.of_eq ?_)
    rw [List.map_map, List.map_map]
    refine List.map_congr_left fun y _ => ?_
    simp only [Function.comp, toR, RightItem.clone, GroupMap.clone, cloneR, m.hb.hr_congr _ _ (hr y.r)]
  · rw [List.pairwise_map]
    exact h.wf.apartL.imp fun hab => ⟨hab.1, by rw [cloneL, cloneL, hlb]; exact hab.2⟩
  · rw [List.pairwise_map]
    exact h.wf.apartR.imp fun hab => ⟨hab.1, by rw [cloneR, cloneR, hrb]; exact hab.2⟩
  · intro x hx
    obtain ⟨a, ha, rfl⟩ := List.mem_map.1 hx
    exact h.wf.boundL a ha
  · intro y hy
    obtain ⟨a, ha, rfl⟩ := List.mem_map.1 hy
    exact h.wf.boundR a ha
  · intro x hx
    obtain ⟨a, ha, rfl⟩ := List.mem_map.1 hx
    obtain ⟨y, hy, e1, e2⟩ := h.wf.owner a ha
    exact ⟨_, List.mem_map_of_mem hy, e1, by simp [e2, cloneL, cloneR]⟩
  · intro y hy
    obtain ⟨a, ha, rfl⟩ := List.mem_map.1 hy
    refine (h.wf.pairs a ha).trans (.of_eq ?_)
    rw [hmine, List.map_map]
    refine List.map_congr_left fun x _ => ?_
    simp only [Function.comp, key, GroupMap.clone, cloneL, m.hb.hl_congr _ _ (hl x.l)]

theorem clone_refines (h : ReprG G m c) {cl : L → L} {cr : R → R} (hl : ∀ x, (cl x == x) = true)
    (hr : ∀ x, (cr x == x) = true) : ReprG G (m.clone cl cr) (mapItems cl cr c) := by
  obtain ⟨ls, rs, h, hf, ha⟩ := h
  refine ⟨_, _, h.clone hl hr, ?_, ?_, ?_⟩
  · intro g x hx
    obtain ⟨a, ha, rfl⟩ := List.mem_map.1 hx
    exact hf g a ha
  · refine (ha.rights.map cr).trans (.of_eq ?_)
    rw [List.map_map, List.map_map]; rfl
  · refine (ha.pairs.map fun p => (cl p.1, cr p.2)).trans (.of_eq ?_)
    rw [List.map_map, List.map_map]; rfl

/-! ### Extension -/

omit [EquivBEq L] [EquivBEq R] in
theorem extend_eq_extendOpt (xs : List (L × R)) : m.extend xs = m.extendOpt (xs.map fun p => (some p.1, p.2)) := by
  induction xs generalizing m with
  | nil => rfl
  | cons x xs ih => simp only [extend, List.map_cons, extendOpt, ih]

/-- same hash builder, and every counter advances by at most `n` -/
structure Within (n : Nat) (m m' : GroupMap L R) : Prop where
  hb : m'.hb = m.hb
  left : m.leftCounter ≤ m'.leftCounter ∧ m'.leftCounter ≤ m.leftCounter + n
  right : m.rightCounter ≤ m'.rightCounter ∧ m'.rightCounter ≤ m.rightCounter + n

theorem extendOpt_refines (h : Repr m c) (xs : List (Option L × R)) (hs : NewPairs c xs) :
    ∃ m', m.extendOpt xs = .ok m' ∧ Repr m' (insertAll c xs) ∧ Within xs.length m m' := by
  induction xs generalizing m c with
  | nil => exact ⟨m, rfl, h, rfl, by simp, by simp⟩
  | cons x xs ih =>
    obtain ⟨_ | l, r⟩ := x
    · obtain ⟨o, m1, e, -, h1, n⟩ := insertRight_refines h r
      obtain ⟨m2, e2, h2, n2⟩ := ih h1 hs
      refine ⟨m2, by simp only [extendOpt, e, e2, bind, Except.bind], h2, n2.hb.trans n.hb, ?_, ?_⟩
      · have := n.left; have := n2.left; simp only [List.length_cons]; omega
      · have := n.right; have := n2.right; simp only [List.length_cons]; omega
    · obtain ⟨m1, e, h1, n⟩ := insert_refines h l r hs.1
      obtain ⟨m2, e2, h2, n2⟩ := ih h1 hs.2
      refine ⟨m2, by simp only [extendOpt, e, e2, bind, Except.bind], h2, n2.hb.trans n.hb, ?_, ?_⟩
      · have := n.left; have := n2.left; simp only [List.length_cons]; omega
      · have := n.right; have := n2.right; simp only [List.length_cons]; omega

end Verif.GroupMap
