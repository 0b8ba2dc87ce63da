import Verif.Props.PartialIter
import Verif.Props.PartialTraits
import Verif.Props.PartialDemo
/-! Property C151 for `PartialCycleMap`: which calls visit the entries in the same order. -/
set_option linter.unusedSectionVars false
namespace Verif.PartialMap
open PartialSpec OptionalPair
open CycleSpec (split)

variable [RawImpl] [LawfulRaw] {L R : Type} [BEq L] [BEq R] [EquivBEq L] [EquivBEq R]
variable {m : PartialMap L R}

theorem unpaired_rights (rs : List (MappingPair R)) :
    ∃ ys : List R, ys.Sublist (rs.map (·.value)) ∧
      (rs.filterMap fun r => if r.hash.isSome then none else some (someRight r.value : OptionalPair L R)) =
        ys.map someRight := by
  induction rs with
  | nil => exact ⟨[], .slnil, rfl⟩
  | cons r rs ih =>
    obtain ⟨ys, h1, h2⟩ := ih
    cases hr : r.hash with
    | none => exact ⟨r.value :: ys, h1.cons_cons _, by simp [hr, ← h2]⟩
    | some x => exact ⟨ys, h1.cons _, by simp [hr, ← h2]⟩

theorem split_fst_sublist {σ α : Type} (f : σ → α → Bool × σ) (d : List α) (s : σ) : (split f d s).1.Sublist d := by
  induction d generalizing s with
  | nil => exact .slnil
  | cons a d ih =>
    simp only [split]
    cases hf : f s a with
    | mk b s' =>
      cases b
      · exact (ih s').cons a
      · exact (ih s').cons_cons a

/-- C151: `iter_left`, `iter_paired`, `retain` and `retain_paired` visit what they visit in the order of `iter`; so do `drain`
and `drain_filter`, before they come to right items; `iter_unpaired` and `retain_unpaired` visit first the lone left items in
the order of `iter`, then the lone right items in the order of `iter_right`; and the iterators of a clone visit the clones in
the order in which the originals are visited. -/
theorem C151_order (h : Reachable m) :
    m.iterLeft = m.iterList.filterMap leftOf ∧
    m.iterPairedList = .ok (m.iterList.filterMap pairOf) ∧
    (∃ ys : List R, ys.Sublist m.iterRight ∧
      m.iterUnpairedList = m.iterList.filter (fun e => !isPair e) ++ ys.map someRight ∧
      ∀ n, ∃ x m', m.drainTake n = .ok ((m.iterList ++ x.toList).take n, m') ∧ ∀ e, x = some e → e ∈ ys.map someRight) ∧
    (∀ {σ : Type} (f : σ → OptionalPair L R → Bool × σ) (s : σ),
      ∃ s' m', m.retain (logging f) ([], s) = .ok ((m.iterList, s'), m')) ∧
    (∀ {σ : Type} (f : σ → L × R → Bool × σ) (s : σ), ∃ s' m',
      m.retainPaired (fun s l r => logging f s (l, r)) ([], s) = .ok ((m.iterList.filterMap pairOf, s'), m')) ∧
    (∀ {σ : Type} (f : σ → OptionalPair L R → Bool × σ) (s : σ),
      ∃ s' m', m.retainUnpaired (logging f) ([], s) = .ok ((m.iterUnpairedList, s'), m')) ∧
    (∀ {σ : Type} (f : σ → OptionalPair L R → Bool × σ) (s : σ) (n : Nat), ∃ (ys zs : List R) (s' : σ) (m' : PartialMap L R),
      m.drainFilterTake (logging f) ([], s) n =
        .ok (((split f m.iterList s).1 ++ zs.map someRight).take n, (m.iterList ++ ys.map someRight, s'), m') ∧
      zs.Sublist ys) ∧
    ∀ (cl : L → L) (cr : R → R), (∀ x, (cl x == x) = true) → (∀ x, (cr x == x) = true) →
      (m.clone cl cr).iterList = m.iterList.map (mapEntry cl cr) ∧
      (m.clone cl cr).iterUnpairedList = m.iterUnpairedList.map (mapEntry cl cr) ∧
      (m.clone cl cr).iterRight = m.iterRight.map cr := by
  obtain ⟨c, h⟩ := h.repr
  obtain ⟨qs, us, hp, hr, he, hs, hn⟩ := h.ordered
  have hit : m.iterList = qs.map Rec.e := by
    rw [iterList, iter_todo he, hr.collect (fun q hq => List.mem_append_left _ hq) hs]
  have hpaired : m.iterPairedList = .ok (m.iterList.filterMap pairOf) := by
    rw [iterPairedList_eq hr he hs, hit, pairsOf, List.filterMap_map]; rfl
  obtain ⟨ys, hy1, hy2⟩ := unpaired_rights (L := L) m.right.toList
  have hun : m.iterUnpairedList = m.iterList.filter (fun e => !isPair e) ++ ys.map someRight := by
    rw [iterUnpairedList_eq, UnpairedIter.future]
    refine congr (congrArg _ ?_) hy2
    simp only [iterUnpaired, RawTable.toList]
    rw [he, futureL_eq, hit, List.filter_map]
    refine congrArg _ (List.filter_congr fun q hq => ?_)
    have := hs q hq
    obtain ⟨e, i⟩ := q
    cases e <;> simp_all [loneL, isPair, leftOf]
  refine ⟨?_, hpaired, ⟨ys, hy1, hun, fun n => ?_⟩, fun f s => ?_, fun f s => ?_, fun f s => ?_, fun f s n => ?_,
    fun cl cr hl hrr => ⟨?_, ?_, ?_⟩⟩
  · rw [hit, ← tabL_values (hb := m.hb), ← he, iterLeft, RawTable.toList, List.map_map]; rfl
  · obtain ⟨x, m', h1, h2, h3, h4, -⟩ := drainTake_ordered h n
    refine ⟨x, m', h4, fun e hx => ?_⟩
    obtain ⟨h5, h6⟩ := h3 e hx
    have h7 : e ∈ m.iterUnpairedList := (iterUnpairedList_refines h).mem_iff.2
      (List.mem_filter.2 ⟨h5, by cases e <;> simp_all [isPair, leftOf]⟩)
    rw [hun] at h7
    rcases List.mem_append.1 h7 with h7 | h7
    · have := h1.mem_iff.1 (List.mem_filter.1 h7).1
      rw [List.mem_filter, h6] at this
      cases this.2
    · exact h7
  · obtain ⟨us', m', -, -, -, e, -⟩ := retain_ordered h (logging f) ([], s)
    have e2 := split_logging f id m.iterList [] s
    simp only [id, List.map_id_fun, List.nil_append] at e2
    exact ⟨_, m', by rw [e]; exact congrArg (fun z => Except.ok (Prod.snd (Prod.snd z), m')) e2⟩
  · obtain ⟨d, m', hd, -, e, -⟩ := retainPaired_ordered h (fun s l r => logging f s (l, r)) ([], s)
    cases hd.symm.trans hpaired
    have e2 := split_logging f id (m.iterList.filterMap pairOf) [] s
    simp only [id, List.map_id_fun, List.nil_append] at e2
    exact ⟨_, m', by rw [e]; exact congrArg (fun z => Except.ok (Prod.snd (Prod.snd z), m')) e2⟩
  · obtain ⟨m', -, e, -⟩ := retainUnpaired_ordered h (logging f) ([], s)
    have e2 := split_logging f id m.iterUnpairedList [] s
    simp only [id, List.map_id_fun, List.nil_append] at e2
    exact ⟨_, m', by rw [e]; exact congrArg (fun z => Except.ok (Prod.snd (Prod.snd z), m')) e2⟩
  · obtain ⟨us', d2, m', -, -, -, -, h5, h6, -⟩ := drainFilterTake_ordered h (logging f) ([], s) n
    have k1 := split_logging f id m.iterList [] s
    simp only [id, List.map_id_fun, List.nil_append] at k1
    have k2 := split_logging f asRight d2 m.iterList (split f m.iterList s).2.2
    have k3 : ∀ xs : List (OptionalPair L R), (∀ e ∈ xs, (rightOf e).isSome = true) →
        xs.map asRight = (xs.filterMap rightOf).map someRight := by
      intro xs hx
      induction xs with
      | nil => rfl
      | cons e xs ih =>
        have h1 := hx e (by simp)
        have ih := ih fun e he => hx e (by simp [he])
        cases e <;> simp_all [rightOf, asRight]
    rw [show split (logging f) m.iterList ([], s) = _ from k1] at h6
    dsimp only at h6
    rw [k2] at h6
    dsimp only at h6
    have k4 := split_fst_sublist (fun s e => f s (asRight e)) d2 (split f m.iterList s).2.2
    rw [k3 _ h5, k3 _ fun e he => h5 e (k4.subset he)] at h6
    exact ⟨_, _, _, m', h6, k4.filterMap _⟩
  · have hec : (m.clone cl cr).left.entries = tabL m.hb (qs.map (cloneRec cl cr)) := by
      rw [← tabL_clone hl hrr, ← he]; rfl
    rw [iterList, iter_todo (m := m.clone cl cr) hec, (hr.clone hl hrr).collect, hit]
    · simp [cloneRec, Function.comp_def]
    · intro q hq
      rw [List.map_append]
      exact List.mem_append_left _ hq
    · intro q hq
      obtain ⟨p, hp, rfl⟩ := List.mem_map.1 hq
      have := hs p hp
      obtain ⟨e, i⟩ := p
      cases e <;> simp_all [cloneRec, mapEntry, leftOf]
  · simp only [iterUnpairedList_eq, UnpairedIter.future, iterUnpaired, clone, RawTable.clone, RawTable.toList,
      List.map_append, List.map_filterMap, List.filterMap_map, List.map_map]
    refine congr (congrArg _ (congrArg (List.filterMap · _) (funext fun x => ?_))) (congrArg (List.filterMap · _) (funext fun x => ?_))
    all_goals
      simp only [Function.comp_apply, MappingPair.clone]
      cases x.2.hash <;> simp [mapEntry]
  · simp [iterRight, clone, RawTable.clone, RawTable.toList, MappingPair.clone, Function.comp_def]

open Demo in
/-- two pairs and a lone item on each side: `retain_unpaired` sees `3` and then `30`, and `drain` ends with `30` only after the
three entries with a left item, in the order of `iter` -/
example : demo.iterUnpairedList = [someLeft 3, someRight 30] ∧
    ∃ s' m', demo.retainUnpaired (logging fun (_ : Unit) e => (e == someLeft 3, ())) ([], ()) =
      .ok (([someLeft 3, someRight 30], s'), m') := by
  obtain ⟨-, -, ⟨ys, -, h1, -⟩, -, -, h2, -⟩ := C151_order demo_reachable
  have hc := demo_reachable.repr_of_shows demo_shows
  have h3 : demo.iterUnpairedList = [someLeft 3, someRight 30] := by
    have hp := iterUnpairedList_refines hc
    have hx : demo.iterList.filter (fun e => !isPair e) = [someLeft 3] :=
      List.perm_singleton.1 ((iterList_refines hc).filter _)
    rw [h1, hx] at hp ⊢
    have hy := (hp.trans (List.Perm.swap (someLeft 3) (someRight 30) [])).cons_inv
    exact congrArg (List.cons (someLeft 3)) (List.perm_singleton.1 hy)
  exact ⟨h3, h3 ▸ h2 _ ()⟩

end Verif.PartialMap
