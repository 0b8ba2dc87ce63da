import Verif.CycleMap.Iterate
/-! Iterators of `CycleMap` that are leaked with `mem::forget` instead of being dropped. -/
set_option linter.unusedSectionVars false
namespace Verif.CycleSpec

/-- what a stateful predicate has done so far to a list: the elements accepted, those rejected, those not yet shown to it, its state -/
structure Seen (σ α : Type) where
  accepted : List α
  rejected : List α
  unseen : List α
  state : σ

/-- Running a stateful predicate over a list in order until it has accepted `n` elements (or the list ends). -/
def upTo {σ α : Type} (f : σ → α → Bool × σ) : Nat → List α → σ → Seen σ α
  | 0, as, s => ⟨[], [], as, s⟩
  | _ + 1, [], s => ⟨[], [], [], s⟩
  | n + 1, a :: as, s =>
    match f s a with
    | (true, s') => let x := upTo f n as s'; ⟨a :: x.accepted, x.rejected, x.unseen, x.state⟩
    | (false, s') => let x := upTo f (n + 1) as s'; ⟨x.accepted, a :: x.rejected, x.unseen, x.state⟩

/-- the same with every element renamed -/
def Seen.map {σ α β : Type} (g : α → β) (x : Seen σ α) : Seen σ β :=
  ⟨x.accepted.map g, x.rejected.map g, x.unseen.map g, x.state⟩

theorem upTo_map {σ α β : Type} (f : σ → β → Bool × σ) (g : α → β) (n : Nat) (as : List α) (s : σ) :
    upTo f n (as.map g) s = (upTo (fun s a => f s (g a)) n as s).map g := by
  induction as generalizing n s with
  | nil => cases n <;> rfl
  | cons a as ih =>
    cases n with
    | zero => rfl
    | succ n =>
      cases hf : f s (g a) with
      | mk b s' => cases b <;> simp [upTo, hf, ih, Seen.map]

theorem upTo_perm {σ α : Type} (f : σ → α → Bool × σ) (n : Nat) (as : List α) (s : σ) :
    as.Perm ((upTo f n as s).accepted ++ ((upTo f n as s).rejected ++ (upTo f n as s).unseen)) := by
  induction as generalizing n s with
  | nil => cases n <;> exact .refl _
  | cons a as ih =>
    cases n with
    | zero => exact .refl _
    | succ n =>
      cases hf : f s a with
      | mk b s' =>
        cases b with
        | true => simp only [upTo, hf]; exact (ih n s').cons a
        | false =>
          simp only [upTo, hf]
          refine ((ih (n + 1) s').cons a).trans ?_
          rw [List.cons_append]; exact List.perm_middle.symm

/-- with `n` large, this is the whole run -/
theorem upTo_all {σ α : Type} (f : σ → α → Bool × σ) (n : Nat) (as : List α) (s : σ) (h : as.length ≤ n) (hn : n ≠ 0) :
    upTo f n as s = ⟨(split f as s).1, (split f as s).2.1, [], (split f as s).2.2⟩ := by
  induction as generalizing n s with
  | nil => cases n <;> simp_all [upTo, split]
  | cons a as ih =>
    cases n with
    | zero => simp at h
    | succ n =>
      simp only [List.length_cons, Nat.add_le_add_iff_right] at h
      cases hf : f s a with
      | mk b s' =>
        cases b with
        | true =>
          cases n with
          | zero => cases as with
            | nil => simp [upTo, split, hf]
            | cons _ _ => simp at h
          | succ n => simp [upTo, split, hf, ih (n + 1) s' h (by simp)]
        | false => simp [upTo, split, hf, ih (n + 1) s' (Nat.le_succ_of_le h) (by simp)]

end Verif.CycleSpec

namespace Verif.CycleMap
open CycleSpec OptionalPair

variable [RawImpl] {L R : Type} [BEq L] [BEq R]

/-- `drain()` — 796-802 —, at most `n` calls of `next` — 1321-1328 —, then `mem::forget` of the iterator.  `RawTable::drain` moves the table out
of the map and leaves a new one in its place; only the drop of the `RawDrain`, which does not happen, would put the old one back. -/
def drainForget (m : CycleMap L R) (n : Nat) : Res (List (L × R) × CycleMap L R) := do
  let (ps, it) ← DrainIter.take n m.drain
  return (ps, { m with counter := 0, left := RawTable.withCapacity 0, right := it.right })

/-- `drain_filter(f)` — 830-842 —, at most `n` calls of `next` — 1391-1393 —, then `mem::forget` of the iterator: `Drop` — 1368-1374 — is not
run.  The tables are only borrowed, so they stay as the last call of `next` left them. -/
def drainFilterForget {σ : Type} (m : CycleMap L R) (f : σ → L → R → Bool × σ) (st : σ) (n : Nat) :
    Res (List (L × R) × σ × CycleMap L R) := do
  let (ps, it) ← DrainFilter.take f n { kept := [], todo := m.left.entries, right := m.right, st := st }
  return (ps, it.st, { m with left := RawImpl.touch (.erase (stays m.left (it.kept ++ it.todo))) { m.left with entries := it.kept ++ it.todo },
                              right := it.right })

variable [LawfulRaw] [EquivBEq L] [EquivBEq R] {m : CycleMap L R} {c : List (L × R)}

/-- up to the memory of the emptied table, forgetting `drain` is dropping it -/
theorem drainForget_eq (m : CycleMap L R) (n : Nat) :
    m.drainForget n = (m.drainTake n).map fun x => (x.1, { x.2 with left := RawTable.withCapacity 0 }) := by
  simp only [drainForget, drainTake, bind, Except.bind, pure, Except.pure]
  cases DrainIter.take n m.drain <;> rfl

theorem drainForget_refines (h : Repr m c) (n : Nat) :
    ∃ (d : List (L × R)) (m' : CycleMap L R), d.Perm c ∧ m.drainForget n = .ok (d.take n, m') ∧ m'.hb = m.hb ∧ m'.counter = 0 ∧
      m'.left.entries = [] ∧ ∃ rs : List (Rec L R), rs.map Rec.pair = d.drop n ∧
        m'.right.entries.Perm (rs.map (toR m.hb)) ∧ rs.Pairwise Apart := by
  obtain ⟨d, m', hp, e, h1, h2, h3, h4⟩ := drainTake_refines h n
  refine ⟨d, { m' with left := RawTable.withCapacity 0 }, hp, ?_, h1, h2, ?_, h4⟩
  · rw [drainForget_eq, e]; rfl
  · exact (LawfulRaw.touch_perm _ _).eq_nil

theorem drainFilter_upTo {σ : Type} {hb : BuildHasher L R} (f : σ → L → R → Bool × σ) (n : Nat)
    {ks qs : List (Rec L R)} {t : RawTable (MappingPair R)} (s : σ)
    (ht : t.entries.Perm ((ks ++ qs).map (toR hb))) (ha : (ks ++ qs).Pairwise Apart) :
    ∃ t', DrainFilter.take f n ⟨ks.map (toL hb), qs.map (toL hb), t, s⟩ =
        .ok ((upTo (onRec f) n qs s).accepted.map Rec.pair,
          ⟨(ks ++ (upTo (onRec f) n qs s).rejected).map (toL hb), (upTo (onRec f) n qs s).unseen.map (toL hb), t', (upTo (onRec f) n qs s).state⟩) ∧
      t'.entries.Perm ((ks ++ (upTo (onRec f) n qs s).rejected ++ (upTo (onRec f) n qs s).unseen).map (toR hb)) := by
  induction qs generalizing n ks t s with
  | nil =>
    cases n with
    | zero => exact ⟨t, by simp [DrainFilter.take, upTo], by simpa [upTo] using ht⟩
    | succ n =>
      refine ⟨t, ?_, by simpa [upTo] using ht⟩
      simp [DrainFilter.take, DrainFilter.next, upTo, bind, Except.bind, pure, Except.pure]
  | cons q qs ih =>
    cases n with
    | zero => exact ⟨t, by simp [DrainFilter.take, upTo], by simpa [upTo] using ht⟩
    | succ n =>
      have hpm : (ks ++ q :: qs).Perm (q :: (ks ++ qs)) := List.perm_middle
      have ha' := (hpm.pairwise_iff (fun h => h.symm)).1 ha
      obtain ⟨t1, e1, h1⟩ := removeR_justId (ht.trans (hpm.map _)) (ha'.imp fun h => h.1)
      have hf0 : onRec f s q = f s q.l q.r := rfl
      cases hf : f s q.l q.r with
      | mk b s' =>
        cases b with
        | true =>
          obtain ⟨t2, e2, h2⟩ := ih n s' h1 (List.pairwise_cons.1 ha').2
          refine ⟨t2, ?_, by simpa [upTo, hf0, hf] using h2⟩
          simp only [DrainFilter.take, DrainFilter.next, List.map_cons, toL, e1, hf, bind, Except.bind, upTo, hf0, Rec.pair] at e2 ⊢
          rw [e2]; simp [pure, Except.pure]
        | false =>
          obtain ⟨t2, e2, h2⟩ := ih (n + 1) (ks := ks ++ [q]) s' (by simpa using ht) (by simpa using ha)
          refine ⟨t2, ?_, by simpa [upTo, hf0, hf] using h2⟩
          have hs : DrainFilter.next f (ks.map (toL hb)) ((q :: qs).map (toL hb)) t s =
              DrainFilter.next f ((ks ++ [q]).map (toL hb)) (qs.map (toL hb)) t s' := by
            simp only [List.map_cons, DrainFilter.next, toL, e1, hf]; simp [toL]
          simp only [DrainFilter.take, upTo, hf0, hf] at e2 ⊢
          rw [hs, e2]; simp

/-- `drain_filter` forgotten: the closure was shown pairs until it had accepted `n`; these are gone, all others are there -/
theorem drainFilterForget_refines {σ : Type} (h : Repr m c) (f : σ → L → R → Bool × σ) (s : σ) (n : Nat) :
    ∃ (d : List (L × R)) (m' : CycleMap L R), d.Perm c ∧
      m.drainFilterForget f s n = .ok ((upTo (onPair f) n d s).accepted, (upTo (onPair f) n d s).state, m') ∧
      Repr m' ((upTo (onPair f) n d s).rejected ++ (upTo (onPair f) n d s).unseen) ∧ m'.hb = m.hb ∧ m'.counter = m.counter := by
  obtain ⟨qs, hp, hr, he⟩ := h.ordered
  obtain ⟨t1, e1, h1⟩ :=
    drainFilter_upTo (hb := m.hb) f n (ks := []) (qs := qs) (t := m.right) s (by simpa using hr.right) (by simpa using hr.apart)
  have hall := upTo_perm (onRec f) n qs s
  have hmap : upTo (onPair f) n (qs.map Rec.pair) s = (upTo (onRec f) n qs s).map Rec.pair := upTo_map (onPair f) Rec.pair n qs s
  refine ⟨qs.map Rec.pair, { m with
    left := RawImpl.touch (.erase (stays m.left (((upTo (onRec f) n qs s).rejected ++ (upTo (onRec f) n qs s).unseen).map (toL m.hb))))
      { m.left with entries := ((upTo (onRec f) n qs s).rejected ++ (upTo (onRec f) n qs s).unseen).map (toL m.hb) },
    right := t1 }, hp, ?_, ?_, rfl, rfl⟩
  · rw [hmap]
    simp only [List.map_nil, List.nil_append] at e1
    simp only [drainFilterForget, he, e1, bind, Except.bind, pure, Except.pure, List.map_append, Seen.map]
  · rw [hmap, Seen.map, ← List.map_append]
    refine Rep.repr (m := { m with left := _, right := t1 }) ⟨LawfulRaw.touch_perm _ _, by simpa using h1, ?_, ?_⟩
    · exact (List.pairwise_append.1 ((hall.pairwise_iff (fun h => h.symm)).1 hr.apart)).2.1
    · intro p hpm
      exact hr.bound p (hall.mem_iff.2 (List.mem_append_right _ hpm))

end Verif.CycleMap
