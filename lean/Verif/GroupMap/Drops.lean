import Verif.Drops
import Verif.GroupMap.Torn
import Verif.CycleMap.Counter
/-
The calls of `GroupMap` that drop items, with destructors that may panic (see `Verif/Drops.lean`).  The other calls hand
the items they remove to the caller, or drop arguments they do not need as the last thing they do.  (`retain_paired`: `Verif/DropEnd.lean`.)
-/
set_option linter.unusedSectionVars false
set_option linter.unusedSimpArgs false
namespace Verif.GroupMap
open GroupSpec
open CycleSpec (split)
open CycleMap (Ending split_perm bind_ok)

section
variable [RawImpl] {L R τ : Type} [BEq L] [BEq R]

/-- `clear` (1244-1247): `RawTable::clear` empties the table even if a destructor panics; the panic leaves the call.  (The sets of
a right item hold numbers only, so that dropping them does nothing that could be seen.) -/
def clearD (m : GroupMap L R) (d : τ → L ⊕ R → Bool × τ) (t : τ) : Ending × τ × GroupMap L R :=
  match dropUntil d (m.left.toList.map fun x => .inl x.value) t with
  | (true, t) => (.panicked, t, { m with left := m.left.clear })
  | (false, t) =>
    match dropUntil d (m.right.toList.map fun x => .inr x.value) t with
    | (true, t) => (.panicked, t, { m with left := m.left.clear, right := m.right.clear })
    | (false, t) => (.returned, t, { m with left := m.left.clear, right := m.right.clear })

/-- second loop of `retain_unpaired` (1018-1020): what is removed, left items and a right item, is dropped at once; a panic leaves the loop -/
def retainUnpairedDropD (m : GroupMap L R) (d : τ → L ⊕ R → Bool × τ) : List (UInt64 × Nat) → τ → Res (Ending × τ × GroupMap L R)
  | [], t => .ok (.returned, t, m)
  | (h, i) :: rest, t => do
    let (o, m) ← m.removeViaHashAndId h i
    match dropAll d (o.toList.flatMap fun x => x.1.map .inl ++ [.inr x.2]) t with
    | (0, t) => retainUnpairedDropD m d rest t
    | (n + 1, t) => return (endingOf (n + 1), t, m)

/-- `retain_unpaired` (1005-1021) with destructors that may panic -/
def retainUnpairedD {σ : Type} (m : GroupMap L R) (f : σ → R → Bool × σ) (d : τ → L ⊕ R → Bool × τ) (st : σ) (t : τ) :
    Res (Ending × σ × τ × GroupMap L R) := do
  let (toDrop, st) ← retainUnpairedScan m f m.iterUnpairedList st
  let (e, t, m) ← retainUnpairedDropD m d toDrop t
  return (e, st, t, m)

/-- the arguments that `insert` (231-303) does not put into the map; they are dropped when it returns, the last one first -/
def unused (m : GroupMap L R) (l : L) (r : R) : List (L ⊕ R) :=
  (if m.containsRight r then [.inr r] else []) ++ (if m.containsLeft l then [.inl l] else [])

/-- `Extend<(Option<L>, R)>` (1250-1266): what `insert` does not use and what `insert_right` returns is dropped before the next item is
taken from the iterator -/
def extendOptD (m : GroupMap L R) (d : τ → L ⊕ R → Bool × τ) : List (Option L × R) → τ → Res (Ending × τ × GroupMap L R)
  | [], t => .ok (.returned, t, m)
  | (some l, r) :: rest, t => do
    let old := m.unused l r
    let m ← m.insert l r
    match dropAll d old t with
    | (0, t) => extendOptD m d rest t
    | (n + 1, t) => return (endingOf (n + 1), t, m)
  | (none, r) :: rest, t => do
    let (o, m) ← m.insertRight r
    match dropAll d (o.toList.flatMap fun x => x.1.map .inl ++ [.inr x.2]) t with
    | (0, t) => extendOptD m d rest t
    | (n + 1, t) => return (endingOf (n + 1), t, m)

/-- `Extend<(L, R)>` (1268-1280) -/
def extendD (m : GroupMap L R) (d : τ → L ⊕ R → Bool × τ) : List (L × R) → τ → Res (Ending × τ × GroupMap L R)
  | [], t => .ok (.returned, t, m)
  | (l, r) :: rest, t => do
    let old := m.unused l r
    let m ← m.insert l r
    match dropAll d old t with
    | (0, t) => extendD m d rest t
    | (n + 1, t) => return (endingOf (n + 1), t, m)

end

variable [RawImpl] [LawfulRaw] {L R τ : Type} [BEq L] [BEq R] [EquivBEq L] [EquivBEq R]
variable {m : GroupMap L R} {c : Contents L R} {ls : List (LRec L R)} {rs : List (RRec R)} {G : Prop}

theorem retainUnpairedDropD_rep (d : τ → L ⊕ R → Bool × τ) (ys : List (RRec R)) (h : Rep m ls (ys ++ rs))
    (he : ∀ y ∈ ys, y.pairs.entries = []) (t : τ) {x} (hx : sweep d (fun y => [.inr (RRec.r y)]) ys t = x) :
    ∃ m', m.retainUnpairedDropD d (ys.map fun y => (m.hb.hr y.r, y.id)) t = .ok (endingOf x.1, x.2.2, m') ∧
      Rep m' ls (x.2.1 ++ rs) := by
  subst hx
  induction ys generalizing m t with
  | nil => exact ⟨m, rfl, h⟩
  | cons y ys ih =>
    obtain ⟨ks, m1, e, hks, h1, e1, e2, e3⟩ := removeViaHashAndId_some h
    have hown : ∀ x ∈ ls, (x.own == y.id) = false := by
      intro x hx
      have := (h.wf.mem_pairs hx List.mem_cons_self (y := y)).2
      rw [he y List.mem_cons_self] at this
      simpa using this
    have hdrop : (ls.filter fun x => !(x.own == y.id)) = ls := by
      rw [List.filter_eq_self]
      intro x hx; rw [hown x hx]; rfl
    have hmine : mine ls y.id = [] := by
      rw [mine, List.filter_eq_nil_iff]
      intro x hx; rw [hown x hx]; simp
    rw [hmine] at hks
    have hks := hks.eq_nil
    subst hks
    rw [hdrop] at h1
    simp only [List.map_cons, retainUnpairedDropD, e, bind, Except.bind, Option.toList_some, List.flatMap_cons, List.flatMap_nil,
      List.map_nil, List.nil_append, List.append_nil, sweep]
    rcases hk : dropAll d [.inr y.r] t with ⟨_ | k, t1⟩
    · obtain ⟨m', e', h'⟩ := ih h1 (fun b hb => he b (List.mem_cons_of_mem _ hb)) t1
      rw [e1] at e'
      exact ⟨m', e', h'⟩
    · exact ⟨m1, rfl, h1⟩

theorem retainUnpairedD_refines {σ : Type} (h : ReprG G m c) (f : σ → R → Bool × σ) (d : τ → L ⊕ R → Bool × τ) (s : σ) (t : τ) :
    ∃ (v : List R) (x : Nat × List R × τ) (m' : GroupMap L R), v.Perm (lone c) ∧
      sweep d (fun r => [.inr r]) (split f v s).1 t = x ∧
      m.retainUnpairedD f d s t = .ok (endingOf x.1, (split f v s).2.2, x.2.2, m') ∧
      ReprG G m' ⟨x.2.1 ++ ((split f v s).2.1 ++ c.rights.filter (hasGroup c)), c.pairs⟩ := by
  have hl := iterUnpairedList_refines h
  obtain ⟨ls, rs, h, hf, ha⟩ := h
  obtain ⟨ys, hp, e⟩ := h.rightList
  have hlist : m.iterUnpairedList = (ys.filter fun y => y.pairs.isEmpty).map (·.r) := by
    rw [iterUnpairedList, iterUnpaired, e, (UnpairedIter.take_spec _ _).1, List.take_of_length_le]
    · rw [List.filter_map, List.map_map]; rfl
    · rw [List.filter_map, List.length_map, List.length_map]
      refine Nat.le_trans (List.length_filter_le _ _) ?_
      have := h.right.length_eq
      simp only [List.length_map] at this
      rw [RawTable.len, this, hp.length_eq]; omega
  generalize hz : (ys.filter fun y => y.pairs.isEmpty) = zs at hlist
  have hzs : ∀ y ∈ zs, y ∈ rs ∧ y.pairs.entries = [] := by
    intro y hy
    rw [← hz] at hy
    have := List.mem_filter.1 hy
    exact ⟨hp.mem_iff.1 this.1, by simpa [PairSet.isEmpty] using this.2⟩
  have e1 := retainUnpairedScan_eq h f s zs fun y hy => (hzs y hy).1
  have hsp := split_perm (fun s (y : RRec R) => f s y.r) zs s
  have hms := split_mapped f (fun y : RRec R => y.r) zs s
  generalize split (fun s (y : RRec R) => f s y.r) zs s = q at e1 hsp hms
  obtain ⟨as, ks, s'⟩ := q
  simp only at e1 hsp hms
  have hrs : rs.Perm (as ++ (ks ++ rs.filter fun y => !y.pairs.isEmpty)) := by
    rw [← List.append_assoc]
    refine .trans ?_ (hsp.symm.append_right _)
    refine (List.filter_append_perm (fun y : RRec R => y.pairs.isEmpty) rs).symm.trans (.append_right _ ?_)
    rw [← hz]; exact (hp.filter _).symm
  have h0 := h
  have h := h.perm (.refl _) hrs
  obtain ⟨m', e2, h'⟩ := retainUnpairedDropD_rep d as h (fun y hy =>
    (hzs y (hsp.symm.mem_iff.2 (List.mem_append_left _ hy))).2) t rfl
  refine ⟨zs.map (·.r), _, m', hlist ▸ hl, rfl, ?_, ⟨ls, _, h', hf, ?_, ha.pairs⟩⟩
  · rw [retainUnpairedD, hlist]
    simp only [e1, e2, hms, sweep_map, bind, Except.bind, pure, Except.pure]
  · rw [hms, List.map_append, List.map_append]
    simp only [sweep_map]
    refine .append_left _ (.append_left _ ?_)
    refine (ha.rights.filter _).trans ?_
    rw [List.filter_map]
    refine .of_eq (congrArg _ (List.filter_congr fun y hy => ?_))
    simp only [Function.comp]
    rw [ha.hasGroup_some h0.wf hy BEq.rfl]

/-- `clear` stopped by the destructor of a left item: the right items keep referring to the left items that are gone -/
theorem clearLeft_torn (h : Repr m c) :
    ShowsTorn { m with left := m.left.clear } c.rights [] c.pairs ∧
    ∀ r p, p ∈ c.pairs → (r == p.2) = true → GroupMap.removeRight { m with left := m.left.clear } r = .error .unwrapNone := by
  obtain ⟨ls, rs, h, hf, ha⟩ := h
  have ht : Torn { m with left := m.left.clear } [] [] ls rs :=
    { left := by simp [RawTable.clear_entries]
      right := h.right
      wf := h.wf
      apart := h.wf.apartL
      boundL := by simp
      fresh := by simp
      owner := by simp }
  refine ⟨ht.shows ha.rights (.refl _) ha.pairs, fun r p hp hr => ?_⟩
  obtain ⟨x, hx, rfl⟩ := List.mem_map.1 (ha.pairs.mem_iff.1 hp)
  obtain ⟨y, rs', hq, y1, y2, -⟩ := h.wf.ownerOf hx
  have hr' : (r == y.r) = true := by rw [y2]; exact hr
  have h2 := h.perm (.refl _) hq
  obtain ⟨t2, e2, -⟩ := removeR_eq h2.consR hr' (h2.wf.othersR hr')
  have hmem : key m.hb x ∈ y.pairs.entries := (h2.wf.mem_pairs hx List.mem_cons_self).2 y1.symm
  have := removeAll_panics y.pairs.entries m.left.clear hmem fun e he => by simp [RawTable.clear_entries] at he
  simp only [removeRight, e2, toR, this, bind, Except.bind]

/-- an initial part of a sequence of new pairs -/
theorem NewPairs.prefix {ys zs : List (Option L × R)} (h : NewPairs c (ys ++ zs)) : NewPairs c ys := by
  induction ys generalizing c with
  | nil => trivial
  | cons y ys ih =>
    obtain ⟨_ | l, r⟩ := y
    · exact ih (c := (GroupSpec.insertRight c r).2) h
    · exact ⟨h.1, ih (c := GroupSpec.insert c l r) h.2⟩

/-- all items of the contents -/
def items (c : Contents L R) : List (L ⊕ R) := c.rights.map .inr ++ c.pairs.map fun p => .inl p.1

/-- the items of the elements of a sequence -/
def itemsOf (xs : List (Option L × R)) : List (L ⊕ R) := xs.flatMap fun x => x.1.toList.map .inl ++ [.inr x.2]

theorem find_eraseL_perm (h : c.Sound) (l : L) : ((findL c l).toList ++ (eraseL c l).pairs).Perm c.pairs :=
  find_filter_perm (h.lefts.imp fun hpq hh => by
    have := PartialEquivBEq.trans (PartialEquivBEq.symm hh.1) hh.2; rw [hpq] at this; cases this)

theorem find_eraseR_perm (h : c.Sound) (r : R) : ((findR c r).toList ++ (eraseR c r).rights).Perm c.rights :=
  find_filter_perm (h.rights.imp fun hpq hh => by
    have := PartialEquivBEq.trans (PartialEquivBEq.symm hh.1) hh.2; rw [hpq] at this; cases this)

theorem insert_conserves (h : c.Sound) (l : L) (r : R) :
    ((if (findR c r).isSome then [Sum.inr r] else []) ++ (if (findL c l).isSome then [Sum.inl l] else []) ++
      items (GroupSpec.insert c l r)).Perm ([Sum.inl l, Sum.inr r] ++ items c) := by
  have h1 := (find_eraseL_perm h l).map fun p => (Sum.inl p.1 : L ⊕ R)
  rw [List.map_append] at h1
  cases hr : findR c r with
  | none =>
    cases hl : findL c l with
    | none =>
      rw [hl] at h1
      simp only [items, GroupSpec.insert, hr, hl, Option.isSome_none, Option.map_none, Option.getD_none, List.map_cons, List.nil_append,
        Bool.false_eq_true, if_false, List.cons_append]
      refine .trans (.cons _ List.perm_middle) (.trans (.swap _ _ _) (.cons _ (.cons _ (.append_left _ ?_))))
      simpa using h1
    | some p =>
      rw [hl] at h1
      simp only [items, GroupSpec.insert, hr, hl, Option.isSome_none, Option.isSome_some, Option.map_some, Option.getD_some, List.map_cons,
        List.nil_append, Bool.false_eq_true, if_false, if_true, List.cons_append]
      exact .cons _ (.cons _ (.append_left _ (by simpa using h1)))
  | some b =>
    cases hl : findL c l with
    | none =>
      rw [hl] at h1
      simp only [items, GroupSpec.insert, hr, hl, Option.isSome_none, Option.isSome_some, Option.map_none, Option.getD_none, List.map_cons,
        List.nil_append, Bool.false_eq_true, if_false, if_true, List.cons_append]
      refine .trans (.cons _ List.perm_middle) (.trans (.swap _ _ _) (.cons _ (.cons _ (.append_left _ ?_))))
      simpa using h1
    | some p =>
      rw [hl] at h1
      simp only [items, GroupSpec.insert, hr, hl, Option.isSome_some, Option.map_some, Option.getD_some, List.map_cons,
        List.nil_append, if_true, List.cons_append]
      exact .trans (.swap _ _ _) (.cons _ (.cons _ (.append_left _ (by simpa using h1))))

theorem insertRight_conserves (h : c.Sound) (r : R) {o : Option (List L × R)} (ho : SameEntry o (GroupSpec.insertRight c r).1) :
    ((o.toList.flatMap fun x : List L × R => x.1.map Sum.inl ++ [Sum.inr x.2]) ++ items (GroupSpec.insertRight c r).2).Perm
      (Sum.inr r :: items c) := by
  have h1 := (find_eraseR_perm h r).map (Sum.inr : R → L ⊕ R)
  have h2 := (List.filter_append_perm (fun p => r == p.2) c.pairs).map fun p => (Sum.inl p.1 : L ⊕ R)
  rw [List.map_append] at h1 h2
  cases hr : findR c r with
  | none =>
    simp only [GroupSpec.insertRight, entryR, hr, Option.map_none] at ho
    cases o with
    | some => cases ho
    | none =>
      rw [hr] at h1
      have hn : c.pairs.filter (fun p => r == p.2) = [] := by
        rw [List.filter_eq_nil_iff]
        intro p hp
        have := List.find?_eq_none.1 hr p.2 (h.owned p hp)
        exact this
      rw [hn] at h2
      simp only [items, GroupSpec.insertRight, Option.toList_none, List.flatMap_nil, List.nil_append, List.map_cons, List.cons_append]
      exact .cons _ (.append (by simpa using h1) h2)
  | some b =>
    simp only [GroupSpec.insertRight, entryR, hr, Option.map_some] at ho
    cases o with
    | none => cases ho
    | some x =>
      obtain ⟨ho1, ho2⟩ := ho
      simp only at ho1 ho2
      rw [hr] at h1
      simp only [items, GroupSpec.insertRight, Option.toList_some, List.flatMap_cons, List.flatMap_nil, List.append_nil, List.map_cons,
        List.cons_append, ho2]
      refine List.perm_middle.trans (.cons _ ?_)
      have h3 : (x.1.map Sum.inl).Perm ((c.pairs.filter fun p => r == p.2).map fun p => (Sum.inl p.1 : L ⊕ R)) := by
        refine (ho1.map _).trans ?_
        rw [group, List.map_map]; exact .refl _
      simp only [Option.toList_some, List.map_cons, List.map_nil] at h1
      refine .trans ?_ (h1.append h2)
      refine .trans (.append_right _ (.append_right _ h3)) ?_
      generalize (c.pairs.filter fun p => r == p.2).map (fun p => (Sum.inl p.1 : L ⊕ R)) = A
      simp only [List.append_assoc, eraseR, List.singleton_append, List.cons_append]
      refine List.perm_middle.trans (.cons _ ?_)
      simp only [← List.append_assoc, List.append_nil, List.nil_append]
      exact List.perm_append_comm.append_right _

theorem unused_eq (h : Repr m c) (l : L) (r : R) : m.unused l r =
    (if (findR c r).isSome then [.inr r] else []) ++ (if (findL c l).isSome then [.inl l] else []) := by
  have h1 := h.shows.containsRight r
  have h2 := h.shows.containsLeft l
  have h3 : (findR c r).isSome = c.rights.any (r == ·) := by rw [findR, List.isSome_find?]
  have h4 : (findL c l).isSome = c.pairs.any (l == ·.1) := by rw [findL, List.isSome_find?]
  rw [unused, h1, h2, h3, h4]

/-- one element of `extend` -/
theorem extendOptD_cons (h : Repr m c) (d : τ → L ⊕ R → Bool × τ) (x : Option L × R) (xs : List (Option L × R)) (hs : NewPairs c (x :: xs)) :
    ∃ m1 c1 gone, Repr m1 c1 ∧ (∀ ys, insertAll c (x :: ys) = insertAll c1 ys) ∧ NewPairs c1 xs ∧
      (∀ xs, m.extendOpt (x :: xs) = m1.extendOpt xs) ∧ (gone ++ items c1).Perm (itemsOf [x] ++ items c) ∧
      ∀ xs t, m.extendOptD d (x :: xs) t = match dropAll d gone t with
        | (0, t) => extendOptD m1 d xs t
        | (n + 1, t) => .ok (endingOf (n + 1), t, m1) := by
  obtain ⟨_ | l, r⟩ := x
  · obtain ⟨o, m1, e1, ho, h1, -⟩ := insertRight_refines h r
    refine ⟨m1, _, o.toList.flatMap fun x => x.1.map .inl ++ [.inr x.2], h1, fun _ => rfl, hs,
      fun xs => by simp only [extendOpt, e1, bind, Except.bind], ?_, fun xs t => ?_⟩
    · exact insertRight_conserves h.shows.sound r ho
    · simp only [extendOptD, e1, bind, Except.bind]; rfl
  · obtain ⟨m1, e1, h1, -⟩ := insert_refines h l r hs.1
    refine ⟨m1, _, m.unused l r, h1, fun _ => rfl, hs.2, fun xs => by simp only [extendOpt, e1, bind, Except.bind], ?_, fun xs t => ?_⟩
    · rw [unused_eq h]; exact insert_conserves h.shows.sound l r
    · simp only [extendOptD, e1, bind, Except.bind]; rfl

theorem extendOptD_refines (h : Repr m c) (d : τ → L ⊕ R → Bool × τ) (xs : List (Option L × R)) (hs : NewPairs c xs) (t : τ) :
    ∃ e t' m' ys zs gone, xs = ys ++ zs ∧ m.extendOptD d xs t = .ok (e, t', m') ∧ m.extendOpt ys = .ok m' ∧
      Repr m' (insertAll c ys) ∧ (gone ++ items (insertAll c ys)).Perm (itemsOf ys ++ items c) ∧ t' = (dropAll d gone t).2 ∧
      e = endingOf (dropAll d gone t).1 ∧
      (e = .returned → zs = []) ∧ ∃ t0 m0, m.extendOptD d ys.dropLast t = .ok (.returned, t0, m0) := by
  induction xs generalizing m c t with
  | nil => exact ⟨_, _, m, [], [], [], rfl, rfl, rfl, h, .refl _, rfl, rfl, fun _ => rfl, _, _, rfl⟩
  | cons x xs ih =>
    obtain ⟨m1, c1, g1, h1, hc1, hs1, hx1, hcons, hd1⟩ := extendOptD_cons h d x xs hs
    rcases hk : dropAll d g1 t with ⟨_ | k, t1⟩
    · obtain ⟨e, t', m2, ys, zs, gone, hx, e2, e3, h2, h3, h4, h5, h6, t0, m0, h7⟩ := ih h1 hs1 t1
      refine ⟨e, t', m2, x :: ys, zs, g1 ++ gone, by rw [hx]; rfl, ?_, ?_, by rw [hc1]; exact h2, ?_, ?_, ?_, h6, ?_⟩
      · rw [hd1, hk]; exact e2
      · rw [hx1]; exact e3
      · rw [List.append_assoc, hc1]
        refine (h3.append_left _).trans ?_
        rw [← List.append_assoc]
        refine (List.perm_append_comm.append_right _).trans ?_
        rw [List.append_assoc]
        refine (hcons.append_left _).trans ?_
        have : itemsOf (x :: ys) = itemsOf [x] ++ itemsOf ys := by simp [itemsOf]
        rw [this, ← List.append_assoc]
        exact List.perm_append_comm.append_right _
      · rw [dropAll_append, hk]; exact h4
      · rw [dropAll_append, hk, Nat.zero_add]; exact h5
      · cases ys with
        | nil => exact ⟨t, m, rfl⟩
        | cons y ys => exact ⟨t0, m0, by rw [List.dropLast_cons_cons, hd1, hk]; exact h7⟩
    · refine ⟨endingOf (k + 1), t1, m1, [x], xs, g1, rfl, ?_, ?_, by rw [hc1]; exact h1, by rw [hc1]; exact hcons, ?_, ?_, ?_, t, m, rfl⟩
      · rw [hd1, hk]
      · rw [hx1]; rfl
      · rw [hk]
      · rw [hk]
      · intro h; cases k <;> cases h

theorem extendD_eq (d : τ → L ⊕ R → Bool × τ) (xs : List (L × R)) (t : τ) :
    m.extendD d xs t = m.extendOptD d (xs.map fun p => (some p.1, p.2)) t := by
  induction xs generalizing m t with
  | nil => rfl
  | cons x xs ih => simp only [extendD, extendOptD, List.map_cons, ih]

end Verif.GroupMap
