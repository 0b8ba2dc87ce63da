import Verif.Props.GroupIter
import Verif.Props.GroupTraits
import Verif.Props.GroupDemo
/-! Property C151 for `GroupMap`: which calls visit in the same order. -/
set_option linter.unusedSectionVars false
namespace Verif.GroupMap
open GroupSpec
open CycleSpec (split)

variable [RawImpl] [LawfulRaw] {L R : Type} [BEq L] [BEq R] [EquivBEq L] [EquivBEq R]
variable {m : GroupMap L R}

/-- a closure that also writes down what it is called on -/
def logging {σ α : Type} (f : σ → α → Bool × σ) : List α × σ → α → Bool × (List α × σ) :=
  fun s a => ((f s.2 a).1, (s.1 ++ [a], (f s.2 a).2))

theorem split_logging {σ α β : Type} (f : σ → β → Bool × σ) (g : α → β) (d : List α) (log : List β) (s : σ) :
    (split (fun s a => logging f s (g a)) d (log, s)).2.2 = (log ++ d.map g, (split (fun s a => f s (g a)) d s).2.2) := by
  induction d generalizing log s with
  | nil => simp [split]
  | cons p d ih =>
    simp only [split, logging]
    have := ih (log ++ [g p]) (f s (g p)).2
    simp only [logging] at this
    cases hf : f s (g p) with
    | mk b s' => rw [hf] at this; cases b <;> simp [this]

/-- what a right item with its left items contributes to `iter` -/
def spread (g : R × List L) : List (Option L × R) :=
  if g.2.isEmpty then [(none, g.1)] else g.2.map fun l => (some l, g.1)

theorem Rep.iterPairedList_eq {ls : List (LRec L R)} {rs : List (RRec R)} (h : Rep m ls rs) (hf : Fresh ls)
    {xs : List (LRec L R)} (hx : ∀ x ∈ xs, x ∈ ls) (e : m.left.toList = xs.map fun x => (toL m.hb x).2) :
    m.iterPairedList = .ok (xs.map fun x => (x.l, x.r)) := by
  have hl : m.left.len = xs.length := by
    rw [RawTable.len, ← List.length_map (f := (·.2)), ← RawTable.toList, e, List.length_map]
  have := PairedIter.take_ok (h.looks hf) (m.left.len + 1) xs hx
  simp only [iterPairedList, iterPaired, e, this, bind, Except.bind, pure, Except.pure]
  rw [List.take_of_length_le (by omega)]

theorem iterUnpairedList_eq (m : GroupMap L R) :
    m.iterUnpairedList = (m.right.toList.filter fun t => t.pairs.isEmpty).map (·.value) := by
  rw [iterUnpairedList, iterUnpaired, (UnpairedIter.take_spec _ _).1, List.take_of_length_le]
  rw [List.length_map]
  refine Nat.le_trans (List.length_filter_le _ _) ?_
  rw [RawTable.len, RawTable.toList, List.length_map]; omega

/-- `iter` goes through the right items in the order of `iter_right`, and through the left items of each in the order of
`get_left_iter` -/
theorem Rep.iterList_eq {ls : List (LRec L R)} {rs : List (RRec R)} (h : Rep m ls rs) (hf : Fresh ls)
    {zs : List (Grp L R)} (hz : m.right.toList = zs.map fun z => (toR m.hb z.1).2)
    (hg : ∀ z ∈ zs, z.1.pairs.entries = z.2.map (key m.hb) ∧ ∀ x ∈ z.2, x ∈ ls ∧ x.r = z.1.r) :
    m.iterList = .ok (zs.flatMap fun z => spread (z.1.r, z.2.map (·.l))) := by
  have hi : IterAt m ls m.iter [] zs := ⟨rfl, hz, by simp, hg⟩
  obtain ⟨it2, -, -, e2, -⟩ := Iter.take_ok (h.looks hf) (m.iter.fuel + 1) hi
  have := hi.fuel
  simp only [iterList, e2, bind, Except.bind, pure, Except.pure]
  rw [List.take_of_length_le (by omega), yields, List.map_nil, List.nil_append]
  rw [List.flatMap_def, List.flatMap_def]
  refine congrArg _ (congrArg _ (List.map_congr_left fun z hz => ?_))
  have hr := fun x hx => ((hg z hz).2 x hx).2
  obtain ⟨y, qs⟩ := z
  cases qs with
  | nil => rfl
  | cons q qs =>
    simp only [Grp.out, spread, List.map_cons, List.isEmpty_cons, Bool.false_eq_true, if_false, List.map_map]
    rw [hr q (by simp)]
    exact congrArg _ (List.map_congr_left fun x hx => by simp [hr x (by simp [hx])])

/-- C151: `iter_left` and `retain_paired` follow the order of `iter_paired`, and `retain_unpaired` that of `iter_unpaired`,
which is the order of `iter_right`; `iter` takes the right items in the order of `iter_right` and the left items of each in
the order of `get_left_iter`; the iterators of a clone visit the clones in the order in which the originals are visited. -/
theorem C151_order (h : Reachable m) :
    ∃ (ps : List (L × R)) (gs : List (R × List L)),
      m.iterPairedList = .ok ps ∧ m.iterLeft = ps.map (·.1) ∧
      (∀ {σ : Type} (f : σ → L × R → Bool × σ) (s : σ),
        ∃ s' m', m.retainPaired (fun s l r => logging f s (l, r)) ([], s) = .ok ((ps, s'), m')) ∧
      m.iterUnpairedList = m.iterRight.filter (fun r => !m.isRightPaired r) ∧
      (∀ {σ : Type} (f : σ → R → Bool × σ) (s : σ),
        ∃ s' m', m.retainUnpaired (logging f) ([], s) = .ok ((m.iterUnpairedList, s'), m')) ∧
      m.iterRight = gs.map (·.1) ∧ (∀ g ∈ gs, m.getLeftList g.1 = .ok (some g.2)) ∧
      m.iterList = .ok (gs.flatMap spread) ∧
      ∀ (cl : L → L) (cr : R → R), (∀ x, (cl x == x) = true) → (∀ x, (cr x == x) = true) →
        (m.clone cl cr).iterPairedList = .ok (ps.map fun p => (cl p.1, cr p.2)) ∧
        (m.clone cl cr).iterUnpairedList = m.iterUnpairedList.map cr ∧
        (m.clone cl cr).iterRight = m.iterRight.map cr ∧
        (m.clone cl cr).iterList = .ok ((gs.map fun g => (cr g.1, g.2.map cl)).flatMap spread) := by
  obtain ⟨c, h⟩ := h.repr
  have h0 := h
  obtain ⟨ls, rs, h, hf, ha⟩ := h
  have hf := hf trivial
  obtain ⟨xs, hp, e⟩ := h.leftList
  have hpl := h.iterPairedList_eq hf (fun x hx => hp.mem_iff.1 hx) e
  obtain ⟨ys, hq, er⟩ := h.rightList
  obtain ⟨zs, h1, h2⟩ := exists_groups h.wf ys fun y hy => hq.mem_iff.1 hy
  have hz : m.right.toList = zs.map fun z => (toR m.hb z.1).2 := by
    rw [er, ← h1, List.map_map]; rfl
  have hg : ∀ z ∈ zs, z.1.pairs.entries = z.2.map (key m.hb) ∧ ∀ x ∈ z.2, x ∈ ls ∧ x.r = z.1.r := by
    intro z hz
    obtain ⟨z1, z2, z3⟩ := h2 z hz
    refine ⟨z2, fun x hx => ?_⟩
    have hx' := List.mem_filter.1 (z3.mem_iff.1 hx)
    refine ⟨hx'.1, ?_⟩
    obtain ⟨w, hw, e1, e2⟩ := h.wf.owner x hx'.1
    have : x.own = z.1.id := by simpa using hx'.2
    rw [← e2, h.wf.sameR hw z1 (by rw [e1, this])]
  have hfc : ∀ (cl : L → L) (cr : R → R), Fresh (ls.map (cloneL cl cr)) := fun cl cr x hx => by
    obtain ⟨y, hy, rfl⟩ := List.mem_map.1 hx
    exact hf y hy
  refine ⟨xs.map fun x => (x.l, x.r), zs.map fun z => (z.1.r, z.2.map (·.l)), hpl, ?_, fun f s => ?_, ?_, fun f s => ?_, ?_, ?_,
    ?_, fun cl cr hl hr => ⟨?_, ?_, ?_, ?_⟩⟩
  · simp [iterLeft, e, toL, Function.comp_def]
  · obtain ⟨xs', t, -, e', hpl', e1, -⟩ := retainPaired_ordered h hf (fun s l r => logging f s (l, r)) ([], s)
    have hx := Except.ok.inj (hpl.symm.trans hpl')
    rw [hx]
    rw [split_logging f (fun x : LRec L R => (x.l, x.r)), List.nil_append] at e1
    exact ⟨_, _, e1⟩
  · rw [iterUnpairedList_eq, iterRight, List.filter_map, hz, List.filter_map, List.map_map, List.filter_map, List.map_map]
    refine congrArg _ (List.filter_congr fun z hz => ?_)
    simp only [Function.comp, toR]
    rw [isRightPaired_refines h0, ha.hasGroup_some h.wf (h2 z hz).1 BEq.rfl, Bool.not_not]
  · obtain ⟨m', -, e1, -⟩ := retainUnpaired_ordered h0 (logging f) ([], s)
    have e2 := split_logging f id m.iterUnpairedList [] s
    simp only [id, List.map_id_fun, List.nil_append] at e2
    exact ⟨_, m', by rw [e1]; exact congrArg (fun z => Except.ok (z, m')) e2⟩
  · simp [iterRight, hz, toR, Function.comp_def]
  · intro g hg
    obtain ⟨z, hz, rfl⟩ := List.mem_map.1 hg
    obtain ⟨z1, z2, z3⟩ := h2 z hz
    obtain ⟨rs', hp'⟩ := perm_cons_of_mem z1
    have h' := h.perm (.refl _) hp'
    have e1 : m.right.get (m.hb.hr z.1.r) (fun y => y.value == z.1.r) = _ := getR_eq h'.consR BEq.rfl (h'.wf.othersR BEq.rfl)
    have e2 : m.getLeftIter z.1.r = some ⟨z.2.map (key m.hb)⟩ := by
      rw [getLeftIter, getLeftIterBy, e1]; simp [toR, z2]
    rw [getLeftList, e2]
    simp only [PairIter.take_ok _ z.2 fun x hx => h.getL_of_mem (mem_of_mine z3 x hx), bind, Except.bind, pure, Except.pure]
    rw [List.take_of_length_le (by simp [PairIter.len])]
  · rw [h.iterList_eq hf hz hg, List.flatMap_map]
  · rw [(h.clone hl hr).iterPairedList_eq (xs := xs.map (cloneL cl cr))]
    · simp [cloneL, Function.comp_def]
    · exact hfc cl cr
    · intro x hx
      obtain ⟨y, hy, rfl⟩ := List.mem_map.1 hx
      exact List.mem_map_of_mem (hp.mem_iff.1 hy)
    · rw [clone, RawTable.clone, RawTable.toList, List.map_map]
      rw [RawTable.toList] at e
      have := congrArg (List.map (LeftItem.clone cl)) e
      simp only [List.map_map] at this ⊢
      refine Eq.trans ?_ (this.trans (List.map_congr_left fun x _ => ?_))
      · rfl
      · simp only [Function.comp, toL, LeftItem.clone, cloneL, m.hb.hl_congr _ _ (hl x.l), m.hb.hr_congr _ _ (hr x.r)]
  · simp [iterUnpairedList_eq, clone, RawTable.clone, RawTable.toList, RightItem.clone, List.filter_map, Function.comp_def]
  · simp [iterRight, clone, RawTable.clone, RawTable.toList, RightItem.clone, Function.comp_def]
  · rw [(h.clone hl hr).iterList_eq (zs := zs.map fun z => (cloneR cr z.1, z.2.map (cloneL cl cr)))]
    · simp [List.flatMap_map, cloneR, cloneL, Function.comp_def]
    · exact hfc cl cr
    · rw [clone, RawTable.clone, RawTable.toList, List.map_map]
      rw [RawTable.toList] at hz
      have := congrArg (List.map (RightItem.clone cr)) hz
      simp only [List.map_map] at this ⊢
      refine Eq.trans ?_ (this.trans (List.map_congr_left fun z _ => ?_))
      · simp [RawTable.clone, Function.comp_def]
      · simp only [Function.comp, toR, RightItem.clone, cloneR, m.hb.hr_congr _ _ (hr z.1.r)]
    · intro w hw
      obtain ⟨z, hz, rfl⟩ := List.mem_map.1 hw
      obtain ⟨g1, g2⟩ := hg z hz
      refine ⟨?_, fun x hx => ?_⟩
      · simp only [cloneR, g1, List.map_map]
        refine List.map_congr_left fun x _ => ?_
        simp only [Function.comp, key, clone, cloneL, m.hb.hl_congr _ _ (hl x.l)]
      · obtain ⟨y, hy, rfl⟩ := List.mem_map.1 hx
        exact ⟨List.mem_map_of_mem (g2 y hy).1, by simp [cloneL, cloneR, (g2 y hy).2]⟩

open Demo in
/-- three left items in two groups and a lone right item: `retain_paired` sees the pairs in the order in which `iter_left`
goes through the left items, and `iter` starts with the first right item of `iter_right` -/
example : ∃ (ps : List (Nat × Nat)) (r : Nat) (rs : List Nat) (e : Option Nat × Nat) (es : List (Option Nat × Nat)),
    ps.length = 3 ∧ demo.iterLeft = ps.map (·.1) ∧
    (∃ s' m', demo.retainPaired (fun s l r => logging (fun (_ : Unit) p => (p.1 == 2, ())) s (l, r)) ([], ()) =
      .ok ((ps, s'), m')) ∧ demo.iterRight = r :: rs ∧ rs.length = 2 ∧ demo.iterList = .ok (e :: es) ∧ e.2 = r := by
  obtain ⟨ps, gs, h1, h2, h3, -, -, h4, -, h5, -⟩ := C151_order demo_reachable
  have hl := demo_shows.iterLeft.length_eq
  have hr := demo_shows.iterRight.length_eq
  rw [h2, List.length_map] at hl
  rw [h4, List.length_map] at hr
  match gs, hr with
  | (r, ls) :: gs, hr =>
    have hs : ∃ e es, spread (r, ls) = e :: es ∧ e.2 = r := by
      cases ls
      · exact ⟨_, _, rfl, rfl⟩
      · exact ⟨_, _, rfl, rfl⟩
    obtain ⟨e, es, hs, he⟩ := hs
    refine ⟨ps, r, _, e, es ++ gs.flatMap spread, hl, h2, h3 _ (), h4, by simpa [demoC] using hr, ?_, he⟩
    rw [h5, List.flatMap_cons, hs]; rfl

end Verif.GroupMap
