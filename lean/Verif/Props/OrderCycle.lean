import Verif.Props.CycleIter
import Verif.Props.CycleTraits
import Verif.Props.Always
import Verif.Props.CycleDemo
import Verif.Swiss.Lawful
/-!
Property C151 for `CycleMap`: which calls visit the pairs in the same order.

The order in which a hash table hands out its items means nothing, but it is the same for all calls that walk through the
same table without changing it.
-/
set_option linter.unusedSectionVars false
namespace Verif.CycleMap
open CycleSpec

variable [RawImpl] [LawfulRaw] {L R : Type} [BEq L] [BEq R] [EquivBEq L] [EquivBEq R]
variable {m : CycleMap L R}

/-- C151: `iter`, `iter_left`, `drain`, `drain_filter`, `retain` and `serialize` visit the pairs in one order, whatever the
closures answer and wherever the draining iterators are dropped; `iter` and `iter_right` of a clone visit the clones in
the order in which the originals are visited. -/
theorem C151_order (h : Reachable m) : ∃ ps : List (L × R), m.iterList = .ok ps ∧ m.iterLeft = ps.map (·.1) ∧
    (∀ n, ∃ m', m.drainTake n = .ok (ps.take n, m')) ∧
    (∀ {σ : Type} (f : σ → L → R → Bool × σ) (s : σ), ∃ s' m', m.retain (logging f) ([], s) = .ok ((ps, s'), m')) ∧
    (∀ {σ : Type} (f : σ → L → R → Bool × σ) (s : σ) (n : Nat), ∃ s' m', m.drainFilterTake (logging f) ([], s) n =
      .ok ((split (fun s p => f s p.1 p.2) ps s).1.take n, (ps, s'), m')) ∧
    m.serialize = .ok (ps.length, ps) ∧
    ∀ (cl : L → L) (cr : R → R), (∀ x, (cl x == x) = true) → (∀ x, (cr x == x) = true) →
      (m.clone cl cr).iterList = .ok (ps.map fun p => (cl p.1, cr p.2)) ∧
      (m.clone cl cr).iterRight = m.iterRight.map cr := by
  obtain ⟨c, h⟩ := h.repr
  obtain ⟨qs, hp, hr, he⟩ := h.ordered
  have hit : m.iterList = .ok (qs.map Rec.pair) := by
    rw [iterList, iter_todo he]; exact hr.collect fun q hq => hq
  refine ⟨qs.map Rec.pair, hit, ?_, fun n => ?_, fun f s => ?_, fun f s n => ?_, ?_, fun cl cr hl hrr => ⟨?_, ?_⟩⟩
  · simp [iterLeft, RawTable.toList, he, Rec.pair, toL, Function.comp_def]
  · obtain ⟨t', e, ht'⟩ := drain_take (hb := m.hb) n hr.right (hr.apart.imp fun h => h.1)
    have hd : m.drain = ⟨elemsL m.hb qs, m.right⟩ := by simp [drain, RawTable.toList, he, elemsL]
    refine ⟨{ m with counter := 0, left := m.left.clear, right := t' }, ?_⟩
    simp only [drainTake, hd, e, bind, Except.bind]; simp [pure, Except.pure]
  · obtain ⟨m', e, -⟩ := retain_ordered hr he (logging f) ([], s)
    have e2 : split (onPair (logging f)) (qs.map Rec.pair) ([], s) = _ := split_logging f (qs.map Rec.pair) [] s
    rw [e2] at e
    exact ⟨_, m', e⟩
  · obtain ⟨m', e, -⟩ := drainFilterTake_ordered hr he (logging f) ([], s) n
    have e2 : split (onPair (logging f)) (qs.map Rec.pair) ([], s) = _ := split_logging f (qs.map Rec.pair) [] s
    rw [e2] at e
    exact ⟨_, m', e⟩
  · rw [serialize, hit, len_refines h, ← hp.length_eq]; rfl
  · have hbl : ∀ x, m.hb.hl (cl x) = m.hb.hl x := fun x => m.hb.hl_congr _ _ (hl x)
    have hbr : ∀ x, m.hb.hr (cr x) = m.hb.hr x := fun x => m.hb.hr_congr _ _ (hrr x)
    have hc := hr.clone hl hrr
    have hec : (m.clone cl cr).left.entries = (qs.map fun p => (⟨cl p.l, cr p.r, p.id⟩ : Rec L R)).map (toL m.hb) := by
      simp [clone, RawTable.clone, he, toL, Function.comp_def, MappingPair.clone, hbl, hbr]
    rw [iterList, iter_todo (m := m.clone cl cr) hec]
    refine (hc.collect fun q hq => hq).trans ?_
    simp [Rec.pair, Function.comp_def]
  · simp [iterRight, clone, RawTable.clone, RawTable.toList, MappingPair.clone, Function.comp_def]

open Demo in
/-- three pairs: whatever the order, `retain` sees them in the order in which `iter` and `drain` yield them -/
example : ∃ (ps : List (Nat × Nat)), ps.Perm [(3, 30), (2, 20), (1, 10)] ∧ demo.iterList = .ok ps ∧
    (∃ s' m', demo.retain (logging fun (_ : Unit) l _ => (l == 2, ())) ([], ()) = .ok ((ps, s'), m')) ∧
    ∃ m', demo.drainTake 2 = .ok (ps.take 2, m') := by
  obtain ⟨ps, h1, -, h2, h3, -⟩ := C151_order demo_reachable
  obtain ⟨qs, e, hp⟩ := demo_shows.iter
  cases e.symm.trans h1
  exact ⟨ps, hp, h1, h3 _ (), h2 2⟩

/-- C151, the limit: `iter_right` walks through the other table, so it need not follow the order of `iter`. -/
theorem C151_right_order : ∃ x : List (Out Nat Nat) × CycleMap Nat Nat,
    (letI := swissRaw 4; (withHasher spreadHash).run [.insert 1 30, .insert 2 20, .insert 3 10, .iter, .iterLeft, .iterRight]) = .ok x ∧
      (match x.1 with
        | [_, _, _, .pairs a, .lefts b, .rights c] => decide (b = a.map (·.1)) && decide (c ≠ a.map (·.2))
        | _ => false) = true :=
  ran (e := letI := swissRaw 4; (withHasher spreadHash).run [.insert 1 30, .insert 2 20, .insert 3 10, .iter, .iterLeft, .iterRight])
    (p := fun x : List (Out Nat Nat) × CycleMap Nat Nat => match x.1 with
        | [_, _, _, .pairs a, .lefts b, .rights c] => decide (b = a.map (·.1)) && decide (c ≠ a.map (·.2))
        | _ => false) (by decide +kernel)

end Verif.CycleMap
