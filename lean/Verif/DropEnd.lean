import Verif.CycleMap.Drops
import Verif.CycleMap.Forget
import Verif.PartialMap.Drops
import Verif.GroupMap.Drops
import Verif.GroupMap.Torn
/-
Destructors that panic, continued (Verif/Drops.lean): the iterator of `drain`, `GroupMap::retain_paired`, and the drop of a whole map.
None of the three maps has a `Drop` of its own, so the fields are dropped in the order in which they are declared.
-/
set_option linter.unusedSectionVars false
set_option linter.unusedSimpArgs false
namespace Verif
open CycleMap (Ending)

/-- Two tables are dropped, the second one also if a destructor panics in the first; a second panic aborts. -/
def dropTwo {τ α : Type} (d : τ → α → Bool × τ) (as bs : List α) (t : τ) : Ending × τ :=
  match dropUntil d as t with
  | (false, t) => match dropUntil d bs t with
    | (false, t) => (.returned, t)
    | (true, t) => (.panicked, t)
  | (true, t) => match dropUntil d bs t with
    | (false, t) => (.panicked, t)
    | (true, t) => (.aborted, t)

/-- the destructors run for the first elements, up to and including the one whose destructor panics -/
theorem dropUntil_spec {τ α : Type} (d : τ → α → Bool × τ) (as : List α) (t : τ) :
    ∃ gone lost, as = gone ++ lost ∧ dropAll d gone t = (if (dropUntil d as t).1 then 1 else 0, (dropUntil d as t).2) ∧
      ((dropUntil d as t).1 = false → lost = []) ∧ ((dropUntil d as t).1 = true → gone ≠ []) := by
  induction as generalizing t with
  | nil => exact ⟨[], [], rfl, rfl, fun _ => rfl, fun h => by cases h⟩
  | cons a as ih =>
    rcases ha : d t a with ⟨_ | _, t1⟩
    · obtain ⟨g, l, h1, h2, h3, -⟩ := ih t1
      refine ⟨a :: g, l, by rw [h1]; rfl, ?_, ?_, fun _ => by simp⟩
      · simp only [dropAll, ha, h2, dropUntil]; simp
      · simpa only [dropUntil, ha] using h3
    · refine ⟨[a], as, rfl, ?_, ?_, fun _ => by simp⟩
      · simp [dropAll, ha, dropUntil]
      · simp [dropUntil, ha]

variable [RawImpl] {L R τ : Type} [BEq L] [BEq R]

namespace CycleMap

/-- `drain()` (796-802), at most `n` calls of `next` (1321-1328), then the drop of the iterator: it has no `Drop` of its own, and its `RawDrain`
drops the left items that were not yielded until a destructor panics, in which case the table is not put back and the map keeps
the new one that `RawTable::drain` left in its place.  The right table is only borrowed. -/
def drainD (m : CycleMap L R) (d : τ → L ⊕ R → Bool × τ) (n : Nat) (t : τ) : Res (Ending × List (L × R) × τ × CycleMap L R) := do
  let (ps, it) ← DrainIter.take n m.drain
  match dropUntil d (it.todo.map fun x => .inl x.value) t with
  | (false, t) => return (.returned, ps, t, { m with counter := 0, left := m.left.clear, right := it.right })
  | (true, t) => return (.panicked, ps, t, { m with counter := 0, left := RawTable.withCapacity 0, right := it.right })

/-- dropping the map (88-93: `left_set`, then `right_set`) -/
def dropMap (m : CycleMap L R) (d : τ → L ⊕ R → Bool × τ) (t : τ) : Ending × τ :=
  dropTwo d (m.left.toList.map fun x => .inl x.value) (m.right.toList.map fun x => .inr x.value) t

end CycleMap

namespace PartialMap
open OptionalPair

/-- `DrainIter::next` (2309-2329).  Only the last step runs destructors: the temporary `right_ref.drain()` drops the right items that it does not
yield, at the end of the function.  If one of these panics, the map keeps the new right table that `RawTable::drain` left, and the
item that was about to be returned is dropped — or leaked (`leak`), which depends on the version of the compiler.  The first component counts the panics. -/
def DrainIter.nextD (leak : Bool) (d : τ → L ⊕ R → Bool × τ) (it : DrainIter L R) (t : τ) :
    Res (Nat × Option (OptionalPair L R) × DrainIter L R × τ) :=
  match it.todo with
  | [] =>
    match it.right.toList with
    | [] => .ok (0, none, { todo := [], right := it.right.clear }, t)
    | r :: rs =>
      match dropUntil d (rs.map fun x => .inr x.value) t with
      | (false, t) => .ok (0, some (someRight r.value), { todo := [], right := it.right.clear }, t)
      | (true, t) =>
        if leak then .ok (1, none, { todo := [], right := RawTable.withCapacity 0 }, t)
        else
          let (b, t) := d t (.inr r.value)
          .ok (if b then 2 else 1, none, { todo := [], right := RawTable.withCapacity 0 }, t)
  | _ :: _ => do
    let (o, it) ← it.next
    return (0, o, it, t)

/-- calling `next` until it returns `None` or panics, at most `n` times -/
def DrainIter.takeD (leak : Bool) (d : τ → L ⊕ R → Bool × τ) : Nat → DrainIter L R → τ → Res (Nat × List (OptionalPair L R) × DrainIter L R × τ)
  | 0, it, t => .ok (0, [], it, t)
  | n + 1, it, t => do
    match ← it.nextD leak d t with
    | (0, none, it, t) => return (0, [], it, t)
    | (0, some p, it, t) => do
      let (k, ps, it, t) ← DrainIter.takeD leak d n it t
      return (k, p :: ps, it, t)
    | (k + 1, _, it, t) => return (k + 1, [], it, t)

/-- `Drop for DrainIter` (2280-2292) and `Drop for ConsumeAllOnDrop` (2296-2300).  `unwinding`: a panic is being handled, either because the
iterator is dropped by one, or because dropping an item panicked and the guard goes on with the rest: then a further panic aborts. -/
def DrainIter.dropLoop (leak : Bool) (d : τ → L ⊕ R → Bool × τ) : Nat → (unwinding : Bool) → DrainIter L R → τ → Res (Ending × DrainIter L R × τ)
  | 0, u, it, t => .ok (if u then .panicked else .returned, it, t)
  | n + 1, u, it, t => do
    match ← it.nextD leak d t with
    | (0, none, it, t) => return (if u then .panicked else .returned, it, t)
    | (0, some p, it, t) =>
      match dropAll d (pieces p) t with
      | (0, t) => DrainIter.dropLoop leak d n u it t
      | (1, t) => if u then return (.aborted, it, t) else DrainIter.dropLoop leak d n true it t
      | (_, t) => return (.aborted, it, t)
    | (1, _, it, t) => return (if u then .aborted else .panicked, it, t)
    | (_, _, it, t) => return (.aborted, it, t)

/-- `drain()` (1366-1371), at most `n` calls of `next`, then the drop of the iterator — also when a `next` panicked -/
def drainD (m : PartialMap L R) (leak : Bool) (d : τ → L ⊕ R → Bool × τ) (n : Nat) (t : τ) :
    Res (Ending × List (OptionalPair L R) × τ × PartialMap L R) := do
  let (k, ps, it, t) ← DrainIter.takeD leak d n m.drain t
  if 2 ≤ k then return (.aborted, ps, t, m)
  let (e, it, t) ← DrainIter.dropLoop leak d (it.todo.length + 2) (k == 1) it t
  return (e, ps, t, { m with left := m.left.clear, right := it.right })

/-- dropping the map (96-101: `left_set`, then `right_set`) -/
def dropMap (m : PartialMap L R) (d : τ → L ⊕ R → Bool × τ) (t : τ) : Ending × τ :=
  dropTwo d (m.left.toList.map fun x => .inl x.value) (m.right.toList.map fun x => .inr x.value) t

end PartialMap

namespace GroupMap

/-- second loop of `retain_paired` (985-987): the removed left item is dropped at once; a panic leaves the loop -/
def retainPairedDropD (d : τ → L ⊕ R → Bool × τ) (left : RawTable (LeftItem L)) : List (UInt64 × Nat) → τ → Ending × τ × RawTable (LeftItem L)
  | [], t => (.returned, t, left)
  | (h, i) :: rest, t =>
    match left.removeEntry h (leftWithLeftId i) with
    | none => retainPairedDropD d left rest t
    | some (x, left') =>
      match d t (.inl x.value) with
      | (false, t) => retainPairedDropD d left' rest t
      | (true, t) => (.panicked, t, left')

/-- `retain_paired` (972-988) with destructors that may panic -/
def retainPairedD {σ : Type} (m : GroupMap L R) (f : σ → L → R → Bool × σ) (d : τ → L ⊕ R → Bool × τ) (st : σ) (t : τ) :
    Res (Ending × σ × τ × GroupMap L R) := do
  let ps ← m.iterPairedList
  let (toDrop, st) ← retainPairedScan m f ps st
  let (e, t, left) := retainPairedDropD d m.left toDrop t
  return (e, st, t, { m with left := left })

/-- dropping the map (152-158: `left_set`, then `right_set`; the sets of ids in the right items hold nothing that has a destructor) -/
def dropMap (m : GroupMap L R) (d : τ → L ⊕ R → Bool × τ) (t : τ) : Ending × τ :=
  dropTwo d (m.left.toList.map fun x => .inl x.value) (m.right.toList.map fun x => .inr x.value) t

end GroupMap

variable [LawfulRaw] [EquivBEq L] [EquivBEq R]

namespace CycleMap
variable {m : CycleMap L R} {c : List (L × R)}

theorem drainD_refines (h : Repr m c) (d : τ → L ⊕ R → Bool × τ) (n : Nat) (t : τ) :
    ∃ (ps : List (L × R)) (m' : CycleMap L R), ps.Perm c ∧
      m.drainD d n t = .ok (if (dropUntil d ((ps.drop n).map fun p => .inl p.1) t).1 then .panicked else .returned, ps.take n,
        (dropUntil d ((ps.drop n).map fun p => .inl p.1) t).2, m') ∧
      m'.hb = m.hb ∧ m'.counter = 0 ∧ m'.left.entries = [] ∧ ∃ rs : List (Rec L R), rs.map Rec.pair = ps.drop n ∧
        m'.right.entries.Perm (rs.map (toR m.hb)) ∧ rs.Pairwise Apart := by
  obtain ⟨qs, hp, hr, he⟩ := h.ordered
  obtain ⟨t', e, ht'⟩ := drain_take (hb := m.hb) n hr.right (hr.apart.imp fun h => h.1)
  have hd : m.drain = ⟨elemsL m.hb qs, m.right⟩ := by simp [drain, RawTable.toList, he, elemsL]
  have hl : (elemsL m.hb (qs.drop n)).map (fun x => (.inl x.value : L ⊕ R)) = ((qs.map Rec.pair).drop n).map fun p => .inl p.1 := by
    rw [← List.map_drop, List.map_map]
    simp only [elemsL, List.map_map]
    exact List.map_congr_left fun q _ => rfl
  have ha := hr.apart.sublist (List.drop_sublist n _)
  rcases hk : dropUntil d (((qs.map Rec.pair).drop n).map fun p => (.inl p.1 : L ⊕ R)) t with ⟨_ | _, t1⟩
  · refine ⟨_, { m with counter := 0, left := m.left.clear, right := t' }, hp, ?_, rfl, rfl, RawTable.clear_entries _,
      qs.drop n, by simp, ht', ha⟩
    simp only [drainD, hd, e, bind, Except.bind, hl, hk]; simp [pure, Except.pure]
  · refine ⟨_, { m with counter := 0, left := RawTable.withCapacity 0, right := t' }, hp, ?_, rfl, rfl, (LawfulRaw.touch_perm _ _).eq_nil,
      qs.drop n, by simp, ht', ha⟩
    simp only [drainD, hd, e, bind, Except.bind, hl, hk]; simp [pure, Except.pure]

end CycleMap

namespace PartialMap
open OptionalPair PartialSpec
variable {m : PartialMap L R} {c : List (OptionalPair L R)}

theorem DrainIter.nextD_step {hb : BuildHasher L R} {q : Rec L R} {qs us : List (Rec L R)} {tab : RawTable (MappingPair R)}
    (ht : tab.entries.Perm (tabR hb (q :: qs ++ us))) (ha : (q :: qs ++ us).Pairwise Apart)
    (hs : (leftOf q.e).isSome = true) (leak : Bool) (d : τ → L ⊕ R → Bool × τ) (t : τ) :
    ∃ tab', DrainIter.nextD leak d ⟨elemsL hb (q :: qs), tab⟩ t = .ok (0, some q.e, ⟨elemsL hb qs, tab'⟩, t) ∧
      tab'.entries.Perm (tabR hb (qs ++ us)) := by
  obtain ⟨tab', e, h⟩ := drain_step ht (apart_ids ha) hs
  refine ⟨tab', ?_, h⟩
  obtain ⟨x, hx⟩ := exists_toL (hb := hb) hs
  rw [elemsL_cons hx] at e ⊢
  simp only [nextD, e, bind, Except.bind, pure, Except.pure]

theorem lone_items {hb : BuildHasher L R} {us : List (Rec L R)} {tab : RawTable (MappingPair R)} (h : tab.entries.Perm (tabR hb us))
    (hn : ∀ u ∈ us, leftOf u.e = none) (hne : ∀ u ∈ us, u.e ≠ neither) :
    (tab.toList.map fun x : MappingPair R => (.inr x.value : L ⊕ R)).Perm (us.flatMap fun u => pieces u.e) := by
  have h1 := (h.map (·.2)).map fun x => (.inr x.value : L ⊕ R)
  refine h1.trans (.of_eq ?_)
  clear h h1
  induction us with
  | nil => rfl
  | cons u us ih =>
    obtain ⟨r, hr⟩ := loneRight_of (hn u (by simp)) (hne u (by simp))
    have ih := ih (fun x hx => hn x (List.mem_cons_of_mem _ hx)) (fun x hx => hne x (List.mem_cons_of_mem _ hx))
    obtain ⟨e, i⟩ := u
    cases hr
    simp [tabR, toR, pieces] at ih ⊢
    exact ih

/-- the last step empties the right table -/
theorem DrainIter.nextD_end (leak : Bool) (d : τ → L ⊕ R → Bool × τ) (tab : RawTable (MappingPair R)) (t : τ) :
    ∃ k x tab' t' dropped lost, DrainIter.nextD (L := L) leak d ⟨[], tab⟩ t = .ok (k, x, ⟨[], tab'⟩, t') ∧ tab'.entries = [] ∧
      (k ≠ 0 → x = none) ∧ (∀ e, x = some e → (tab.toList.head?.map fun r => (someRight r.value : OptionalPair L R)) = some e) ∧
      dropAll d dropped t = (k, t') ∧ (k = 0 → lost = []) ∧
      (x.toList.flatMap pieces ++ dropped ++ lost).Perm (tab.toList.map fun x : MappingPair R => (.inr x.value : L ⊕ R)) := by
  have hw : (RawTable.withCapacity 0 : RawTable (MappingPair R)).entries = [] := (LawfulRaw.touch_perm _ _).eq_nil
  simp only [nextD]
  cases hl : tab.toList with
  | nil => exact ⟨0, none, tab.clear, t, [], [], rfl, RawTable.clear_entries _, by simp, by simp, rfl, fun _ => rfl, by simp⟩
  | cons r rs =>
    obtain ⟨g, l, h1, h2, h3, -⟩ := dropUntil_spec d (rs.map fun x => (.inr x.value : L ⊕ R)) t
    rcases hk : dropUntil d (rs.map fun x => (.inr x.value : L ⊕ R)) t with ⟨_ | _, t1⟩
    · rw [hk] at h2 h3
      refine ⟨0, some (someRight r.value), tab.clear, t1, g, [], by simp only [hk], RawTable.clear_entries _, by simp, by simp, by simpa using h2,
        fun _ => rfl, ?_⟩
      rw [List.map_cons, h1, h3 rfl]
      simp [pieces]
    · rw [hk] at h2 h3
      simp only [if_true] at h2
      cases leak with
      | true =>
        refine ⟨1, none, _, t1, g, .inr r.value :: l, by simp only [hk, if_true], hw, by simp, by simp, h2, by simp, ?_⟩
        rw [List.map_cons, h1]
        exact List.perm_middle
      | false =>
        refine ⟨if (d t1 (.inr r.value)).1 then 2 else 1, none, _, (d t1 (.inr r.value)).2, g ++ [.inr r.value], l,
          by simp only [hk, Bool.false_eq_true, if_false], hw, by simp, by simp, ?_, by split <;> simp, ?_⟩
        · rw [dropAll_append, h2]
          simp only [dropAll]
          split <;> rfl
        · rw [List.map_cons, h1]
          simp

/-- the step after that -/
theorem DrainIter.nextD_empty (leak : Bool) (d : τ → L ⊕ R → Bool × τ) {tab : RawTable (MappingPair R)} (h : tab.entries = []) (t : τ) :
    ∃ tab', DrainIter.nextD (L := L) leak d ⟨[], tab⟩ t = .ok (0, none, ⟨[], tab'⟩, t) ∧ tab'.entries = [] := by
  have hl : tab.toList = [] := by simp [RawTable.toList, h]
  exact ⟨tab.clear, by simp only [nextD, hl], RawTable.clear_entries _⟩

theorem DrainIter.dropLoop_end (leak : Bool) (d : τ → L ⊕ R → Bool × τ) (tab : RawTable (MappingPair R)) (u : Bool) (t : τ) :
    ∃ it' t' k dropped lost, DrainIter.dropLoop (L := L) leak d 2 u ⟨[], tab⟩ t = .ok (endingOf ((if u then 1 else 0) + k), it', t') ∧
      dropAll d dropped t = (k, t') ∧ (k = 0 → lost = []) ∧ (dropped ++ lost).Perm (tab.toList.map fun x : MappingPair R => (.inr x.value : L ⊕ R)) ∧
      (endingOf ((if u then 1 else 0) + k) ≠ .aborted → it'.right.entries = []) := by
  obtain ⟨j, x, tab', t1, dr, lo, e1, h1, h2, -, h4, h5, h6⟩ := nextD_end (L := L) leak d tab t
  have hend : ∀ u t1, ∃ it', DrainIter.dropLoop (L := L) leak d 1 u ⟨[], tab'⟩ t1 = .ok (endingOf (if u then 1 else 0), it', t1) ∧ it'.right.entries = [] := by
    intro u t1
    obtain ⟨tab2, e2, h2⟩ := nextD_empty (L := L) leak d h1 t1
    refine ⟨⟨[], tab2⟩, ?_, h2⟩
    simp only [dropLoop, e2, bind, Except.bind, pure, Except.pure]
    cases u <;> rfl
  rw [dropLoop]
  simp only [e1, bind, Except.bind, pure, Except.pure]
  match j, x, h2, h4, h5, h6 with
  | 0, none, _, h4, h5, h6 =>
    refine ⟨⟨[], tab'⟩, t1, 0, dr, lo, ?_, h4, h5, by simpa using h6, fun _ => h1⟩
    cases u <;> rfl
  | 0, some p, _, h4, h5, h6 =>
    simp only
    rcases hk : dropAll d (pieces p) t1 with ⟨k, t2⟩
    have hd : dropAll d (dr ++ pieces p) t = (k, t2) := by rw [dropAll_append, h4]; simp [hk]
    have hp : ((dr ++ pieces p) ++ lo).Perm (tab.toList.map fun x : MappingPair R => (.inr x.value : L ⊕ R)) := by
      refine List.Perm.trans (List.Perm.append_right lo List.perm_append_comm) ?_
      simpa using h6
    match k, hk, hd with
    | 0, hk, hd =>
      obtain ⟨it', e2, h7⟩ := hend u t2
      exact ⟨it', t2, 0, _, _, e2, hd, h5, hp, fun _ => h7⟩
    | 1, hk, hd =>
      cases u with
      | true => exact ⟨_, t2, 1, _, _, rfl, hd, by simp, hp, fun h => absurd rfl h⟩
      | false =>
        obtain ⟨it', e2, h7⟩ := hend true t2
        exact ⟨it', t2, 1, _, _, e2, hd, by simp, hp, fun _ => h7⟩
    | k + 2, hk, hd =>
      refine ⟨⟨[], tab'⟩, t2, k + 2, _, _, ?_, hd, by simp, hp, fun h => absurd (endingOf_aborted (by omega)) h⟩
      rw [endingOf_aborted (by omega)]; rfl
  | 1, _, h2, h4, h5, h6 =>
    have := h2 (by omega); subst this
    refine ⟨⟨[], tab'⟩, t1, 1, dr, lo, ?_, h4, h5, by simpa using h6, fun _ => h1⟩
    cases u <;> rfl
  | k + 2, _, h2, h4, h5, h6 =>
    have := h2 (by omega); subst this
    refine ⟨⟨[], tab'⟩, t1, k + 2, dr, lo, ?_, h4, h5, by simpa using h6, fun h => absurd (endingOf_aborted (by omega)) h⟩
    rw [endingOf_aborted (by omega)]; rfl

theorem DrainIter.dropLoop_ok {hb : BuildHasher L R} {qs us : List (Rec L R)} {tab : RawTable (MappingPair R)}
    (ht : tab.entries.Perm (tabR hb (qs ++ us))) (ha : (qs ++ us).Pairwise Apart)
    (hs : ∀ q ∈ qs, (leftOf q.e).isSome = true) (hn : ∀ u ∈ us, leftOf u.e = none) (hne : ∀ u ∈ us, u.e ≠ neither)
    (leak : Bool) (d : τ → L ⊕ R → Bool × τ) (u : Bool) (t : τ) :
    ∃ it' t' k dropped lost, DrainIter.dropLoop leak d (qs.length + 2) u ⟨elemsL hb qs, tab⟩ t = .ok (endingOf ((if u then 1 else 0) + k), it', t') ∧
      dropAll d dropped t = (k, t') ∧ (k = 0 → lost = []) ∧ (dropped ++ lost).Perm ((qs ++ us).flatMap fun q => pieces q.e) ∧
      (endingOf ((if u then 1 else 0) + k) ≠ .aborted → it'.right.entries = [] ∧ ∀ a ∈ lost, a ∈ us.flatMap fun q => pieces q.e) := by
  induction qs generalizing tab u t with
  | nil =>
    obtain ⟨it', t', k, dr, lo, h1, h2, h3, h4, h5⟩ := dropLoop_end (L := L) leak d tab u t
    have hp := h4.trans (lone_items ht hn hne)
    exact ⟨it', t', k, dr, lo, h1, h2, h3, hp, fun he => ⟨h5 he, fun a ha => hp.mem_iff.1 (List.mem_append_right _ ha)⟩⟩
  | cons q qs ih =>
    obtain ⟨tab1, e1, h1⟩ := nextD_step ht ha (hs q (by simp)) leak d t
    have ih := fun (u : Bool) (t : τ) => ih h1 (List.pairwise_cons.1 ha).2 (fun x hx => hs x (List.mem_cons_of_mem _ hx)) u t
    rw [show (q :: qs).length + 2 = (qs.length + 2) + 1 from by simp]
    rw [dropLoop]
    simp only [e1, bind, Except.bind, pure, Except.pure]
    rcases hk : dropAll d (pieces q.e) t with ⟨k, t2⟩
    have hd : ∀ dr k' t', dropAll d dr t2 = (k', t') → dropAll d (pieces q.e ++ dr) t = (k + k', t') := by
      intro dr k' t' h; rw [dropAll_append, hk]; simp [h]
    have hp : ∀ dr lo : List (L ⊕ R), (dr ++ lo).Perm ((qs ++ us).flatMap fun q => pieces q.e) →
        ((pieces q.e ++ dr) ++ lo).Perm ((q :: qs ++ us).flatMap fun q => pieces q.e) := by
      intro dr lo h
      rw [List.append_assoc, List.cons_append, List.flatMap_cons]
      exact h.append_left _
    match k, hk, hd with
    | 0, hk, hd =>
      obtain ⟨it', t', k, dr, lo, i1, i2, i3, i4, i5⟩ := ih u t2
      exact ⟨it', t', k, _, lo, i1, by simpa using hd _ _ _ i2, i3, hp _ _ i4, i5⟩
    | 1, hk, hd =>
      cases u with
      | true => exact ⟨_, t2, 1, pieces q.e, _, rfl, hk, by simp, by simpa using hp [] _ (.refl _), fun h => absurd rfl h⟩
      | false =>
        obtain ⟨it', t', k, dr, lo, i1, i2, i3, i4, i5⟩ := ih true t2
        refine ⟨it', t', 1 + k, _, lo, ?_, hd _ _ _ i2, by omega, hp _ _ i4, ?_⟩
        · simpa using i1
        · simpa using i5
    | k + 2, hk, hd =>
      refine ⟨⟨elemsL hb qs, tab1⟩, t2, k + 2, pieces q.e, _, ?_, hk, by simp, by simpa using hp [] _ (.refl _),
        fun h => absurd (endingOf_aborted (by omega)) h⟩
      rw [endingOf_aborted (by omega)]; rfl

theorem DrainIter.takeD_ok {hb : BuildHasher L R} (n : Nat) {qs us : List (Rec L R)} {tab : RawTable (MappingPair R)}
    (ht : tab.entries.Perm (tabR hb (qs ++ us))) (ha : (qs ++ us).Pairwise Apart)
    (hs : ∀ q ∈ qs, (leftOf q.e).isSome = true) (hn : ∀ u ∈ us, leftOf u.e = none) (hne : ∀ u ∈ us, u.e ≠ neither)
    (leak : Bool) (d : τ → L ⊕ R → Bool × τ) (t : τ) :
    (n ≤ qs.length ∧ ∃ tab', DrainIter.takeD leak d n ⟨elemsL hb qs, tab⟩ t = .ok (0, (qs.take n).map Rec.e, ⟨elemsL hb (qs.drop n), tab'⟩, t) ∧
      tab'.entries.Perm (tabR hb (qs.drop n ++ us))) ∨
    (qs.length < n ∧ ∃ k x tab' t' dropped lost, DrainIter.takeD leak d n ⟨elemsL hb qs, tab⟩ t = .ok (k, qs.map Rec.e ++ x.toList, ⟨[], tab'⟩, t') ∧
      tab'.entries = [] ∧ dropAll d dropped t = (k, t') ∧ (k = 0 → lost = []) ∧
      (x.toList.flatMap pieces ++ dropped ++ lost).Perm (us.flatMap fun q : Rec L R => pieces q.e) ∧ ∀ e, x = some e → e ∈ us.map Rec.e) := by
  induction n generalizing qs tab with
  | zero => exact .inl ⟨Nat.zero_le _, tab, rfl, ht⟩
  | succ n ih =>
    cases qs with
    | nil =>
      refine .inr ⟨by simp, ?_⟩
      obtain ⟨j, x, tab', t1, dr, lo, e1, h1, h3, h4, h5, h6, h7⟩ := nextD_end (L := L) leak d tab t
      have hp := h7.trans (lone_items ht hn hne)
      have hx : ∀ e, x = some e → e ∈ us.map Rec.e := fun e he => (lone_head ht hn hne).2 e (h4 e he)
      have hel : elemsL hb ([] : List (Rec L R)) = [] := rfl
      simp only [takeD, hel, e1, bind, Except.bind, pure, Except.pure]
      match j, x, h3, h5, h6, hp, hx with
      | 0, none, _, h5, h6, hp, hx => exact ⟨_, none, _, _, dr, lo, rfl, h1, h5, h6, hp, hx⟩
      | 0, some p, _, h5, h6, hp, hx =>
        simp only
        have hn : ∃ tab2, DrainIter.takeD (L := L) leak d n ⟨[], tab'⟩ t1 = .ok (0, [], ⟨[], tab2⟩, t1) ∧ tab2.entries = [] := by
          cases n with
          | zero => exact ⟨tab', rfl, h1⟩
          | succ n =>
            obtain ⟨tab2, e2, h2⟩ := nextD_empty (L := L) leak d h1 t1
            refine ⟨tab2, ?_, h2⟩
            simp only [takeD, e2, bind, Except.bind, pure, Except.pure]
        obtain ⟨tab2, e2, h8⟩ := hn
        rw [e2]
        exact ⟨0, some p, tab2, t1, dr, lo, rfl, h8, h5, h6, hp, hx⟩
      | k + 1, x, h3, h5, h6, hp, hx =>
        have := h3 (by omega); subst this
        exact ⟨k + 1, none, _, _, dr, lo, rfl, h1, h5, h6, hp, hx⟩
    | cons q qs =>
      obtain ⟨tab1, e1, h1⟩ := nextD_step ht ha (hs q (by simp)) leak d t
      rcases ih h1 (List.pairwise_cons.1 ha).2 (fun x hx => hs x (List.mem_cons_of_mem _ hx)) with
        ⟨hn, tab2, e2, h2⟩ | ⟨hn, k, x, tab2, t2, dr, lo, e2, h2⟩
      · refine .inl ⟨by simpa using hn, tab2, ?_, h2⟩
        simp only [takeD, e1, bind, Except.bind, e2]; rfl
      · refine .inr ⟨by simpa using hn, k, x, tab2, t2, dr, lo, ?_, h2⟩
        simp only [takeD, e1, bind, Except.bind, e2]; rfl

theorem drainD_refines (h : Repr m c) (leak : Bool) (d : τ → L ⊕ R → Bool × τ) (n : Nat) (t : τ) :
    ∃ (ds : List (OptionalPair L R)) (x : Option (OptionalPair L R)) (dropped lost : List (L ⊕ R)) (k : Nat) (t' : τ) (m' : PartialMap L R),
      ds.Perm (c.filter fun e => (leftOf e).isSome) ∧ (∀ y, x = some y → y ∈ c ∧ leftOf y = none) ∧
      m.drainD leak d n t = .ok (endingOf k, (ds ++ x.toList).take n, t', m') ∧ dropAll d dropped t = (k, t') ∧
      (((ds ++ x.toList).take n).flatMap pieces ++ dropped ++ lost).Perm (c.flatMap pieces) ∧ (k = 0 → lost = []) ∧
      (k < 2 → (∀ a ∈ lost, ∃ r, a = .inr r ∧ someRight r ∈ c) ∧ Repr m' [] ∧ m'.hb = m.hb ∧ m'.counter = m.counter) := by
  obtain ⟨qs, us, hp, hr, he, hs, hn⟩ := h.ordered
  have hd : m.drain = ⟨elemsL m.hb qs, m.right⟩ := by simp [drain, RawTable.toList, he, elemsL]
  have hne : ∀ u ∈ us, u.e ≠ neither := fun u hu => hr.nonempty u (List.mem_append_right _ hu)
  have hperm : (qs.map Rec.e).Perm (c.filter fun e => (leftOf e).isSome) := by
    rw [← filter_left hs hn]; exact hp.filter _
  have hx1 : ∀ e, e ∈ us.map Rec.e → e ∈ c ∧ leftOf e = none := by
    intro e he
    obtain ⟨u, hu, rfl⟩ := List.mem_map.1 he
    exact ⟨hp.mem_iff.1 (List.mem_map_of_mem (List.mem_append_right _ hu)), hn u hu⟩
  have hu1 : ∀ a, (a ∈ us.flatMap fun q => pieces q.e) → ∃ r, a = .inr r ∧ someRight r ∈ c := by
    intro a h
    obtain ⟨u, hu, h⟩ := List.mem_flatMap.1 h
    obtain ⟨r, hr⟩ := loneRight_of (hn u hu) (hne u hu)
    rw [hr] at h
    exact ⟨r, by simpa [pieces] using h, hr ▸ (hx1 u.e (List.mem_map_of_mem hu)).1⟩
  have hall : (qs.flatMap (fun q => pieces q.e) ++ us.flatMap fun q => pieces q.e).Perm (c.flatMap pieces) := by
    have := hp.flatMap_right pieces
    rwa [List.flatMap_map, List.flatMap_append] at this
  rcases DrainIter.takeD_ok n hr.right hr.apart hs hn hne leak d t with ⟨hle, tab1, e1, h1⟩ | ⟨hlt, k, x, tab1, t1, dr, lo, e1, h1, h2, h3, h4, h5⟩
  · have hs' : ∀ q ∈ qs.drop n, (leftOf q.e).isSome = true := fun q hq => hs q (List.mem_of_mem_drop hq)
    obtain ⟨it', t', k, dr, lo, e2, i2, i3, i4, i5⟩ :=
      DrainIter.dropLoop_ok h1 (hr.apart.sublist ((List.drop_sublist _ _).append_right _)) hs' hn hne leak d false t
    simp only [Bool.false_eq_true, if_false, Nat.zero_add] at e2 i5
    refine ⟨_, none, dr, lo, k, t', { m with left := m.left.clear, right := it'.right }, hperm, by simp, ?_, i2, ?_, i3,
      fun hk => ?_⟩
    · have hk : ¬ 2 ≤ 0 := by omega
      simp only [drainD, hd, e1, bind, Except.bind, if_neg hk, pure, Except.pure, elemsL_length hs',
        show (0 == 1) = false from rfl, e2]
      rw [Option.toList_none, List.append_nil, List.map_take]
    · rw [Option.toList_none, List.append_nil, ← List.map_take, List.flatMap_map, List.append_assoc]
      refine (i4.append_left _).trans ?_
      rw [← List.flatMap_append, ← List.append_assoc, List.take_append_drop, List.flatMap_append]
      exact hall
    · have hea : endingOf k ≠ .aborted := by
        match k, hk with
        | 0, _ => simp [endingOf]
        | 1, _ => simp [endingOf]
      exact ⟨fun a ha => hu1 a ((i5 hea).2 a ha), .nil (RawTable.clear_entries _) (i5 hea).1, rfl, rfl⟩
  · have hx : ∀ y, x = some y → y ∈ c ∧ leftOf y = none := fun y hy => hx1 y (h5 y hy)
    have htake : (qs.map Rec.e ++ x.toList).take n = qs.map Rec.e ++ x.toList :=
      List.take_of_length_le (by cases x <;> simp <;> omega)
    have hled : (((qs.map Rec.e ++ x.toList).take n).flatMap pieces ++ dr ++ lo).Perm (c.flatMap pieces) := by
      rw [htake, List.flatMap_append, List.flatMap_map]
      refine List.Perm.trans (.of_eq ?_) ((h4.append_left _).trans hall)
      simp [List.append_assoc]
    have hlo : ∀ a ∈ lo, ∃ r, a = .inr r ∧ someRight r ∈ c := fun a ha => hu1 a (h4.mem_iff.1 (List.mem_append_right _ ha))
    by_cases hk : 2 ≤ k
    · refine ⟨_, x, dr, lo, k, t1, m, hperm, hx, ?_, h2, hled, h3, by omega⟩
      simp only [drainD, hd, e1, bind, Except.bind, if_pos hk, pure, Except.pure, htake, endingOf_aborted hk]
    · obtain ⟨tab3, e2, h6⟩ := DrainIter.nextD_empty (L := L) leak d h1 t1
      refine ⟨_, x, dr, lo, k, t1, { m with left := m.left.clear, right := tab3 }, hperm, hx, ?_, h2, hled, h3,
        fun _ => ⟨hlo, .nil (RawTable.clear_entries _) h6, rfl, rfl⟩⟩
      simp only [drainD, hd, e1, bind, Except.bind, if_neg hk, pure, Except.pure, htake, List.length_nil, Nat.zero_add, DrainIter.dropLoop, e2]
      match k, hk with
      | 0, _ => rfl
      | 1, _ => rfl
      | k + 2, hk => omega

/-- without panics -/
theorem DrainIter.nextD_calm {leak : Bool} {d : τ → L ⊕ R → Bool × τ} (hd : ∀ t a, (d t a).1 = false) (it : DrainIter L R) (t : τ) :
    ∃ t', it.nextD leak d t = it.next.map fun x => (0, x.1, x.2, t') := by
  obtain ⟨todo, right⟩ := it
  cases todo with
  | nil =>
    cases hr : right.toList with
    | nil => exact ⟨t, by simp [nextD, next, hr, Except.map]⟩
    | cons r rs =>
      have := dropUntil_calm (d := d) (as := rs.map fun x => .inr x.value) (fun t a _ => hd t a) t
      rcases hk : dropUntil d (rs.map fun x => (.inr x.value : L ⊕ R)) t with ⟨_ | _, t1⟩
      · exact ⟨t1, by simp [nextD, next, hr, hk, Except.map]⟩
      · rw [hk] at this; cases this
  | cons l rest =>
    refine ⟨t, ?_⟩
    simp only [nextD, bind, Except.bind, pure, Except.pure]
    cases hn : next ⟨l :: rest, right⟩ <;> rfl

theorem DrainIter.takeD_calm {leak : Bool} {d : τ → L ⊕ R → Bool × τ} (hd : ∀ t a, (d t a).1 = false) (n : Nat) (it : DrainIter L R) (t : τ) :
    ∃ t', DrainIter.takeD leak d n it t = (DrainIter.take n it).map fun x => (0, x.1, x.2, t') := by
  induction n generalizing it t with
  | zero => exact ⟨t, rfl⟩
  | succ n ih =>
    obtain ⟨t1, e1⟩ := it.nextD_calm (leak := leak) hd t
    simp only [takeD, take, e1, bind, Except.bind, pure, Except.pure]
    cases hn : it.next with
    | error e => exact ⟨t, rfl⟩
    | ok x =>
      obtain ⟨o, it'⟩ := x
      cases o with
      | none => exact ⟨t1, rfl⟩
      | some p =>
        obtain ⟨t2, e2⟩ := ih it' t1
        refine ⟨t2, ?_⟩
        simp only [Except.map, e2]
        cases DrainIter.take n it' <;> rfl

theorem dropAll_calm {α : Type} {d : τ → α → Bool × τ} (hd : ∀ t a, (d t a).1 = false) (as : List α) (t : τ) : (dropAll d as t).1 = 0 := by
  induction as generalizing t with
  | nil => rfl
  | cons a as ih => simp [dropAll, hd, ih]

theorem DrainIter.dropLoop_calm {leak : Bool} {d : τ → L ⊕ R → Bool × τ} (hd : ∀ t a, (d t a).1 = false) (n : Nat) (it : DrainIter L R) (t : τ) :
    ∃ t', DrainIter.dropLoop leak d n false it t = (DrainIter.take n it).map fun x => (.returned, x.2, t') := by
  induction n generalizing it t with
  | zero => exact ⟨t, rfl⟩
  | succ n ih =>
    obtain ⟨t1, e1⟩ := it.nextD_calm (leak := leak) hd t
    simp only [dropLoop, take, e1, bind, Except.bind, pure, Except.pure]
    cases hn : it.next with
    | error e => exact ⟨t, rfl⟩
    | ok x =>
      obtain ⟨o, it'⟩ := x
      cases o with
      | none => exact ⟨t1, rfl⟩
      | some p =>
        have h0 := dropAll_calm hd (pieces p) t1
        rcases hk : dropAll d (pieces p) t1 with ⟨k, t2⟩
        rw [hk] at h0; cases h0
        obtain ⟨t3, e3⟩ := ih it' t2
        refine ⟨t3, ?_⟩
        simp only [Except.map, hk, e3]
        cases DrainIter.take n it' <;> rfl

theorem drainD_calm {leak : Bool} {d : τ → L ⊕ R → Bool × τ} (hd : ∀ t a, (d t a).1 = false) (m : PartialMap L R) (n : Nat) (t : τ) :
    ∃ t', m.drainD leak d n t = (m.drainTake n).map fun x => (.returned, x.1, t', x.2) := by
  obtain ⟨t1, e1⟩ := DrainIter.takeD_calm (leak := leak) hd n m.drain t
  simp only [drainD, drainTake, e1, bind, Except.bind, pure, Except.pure]
  cases DrainIter.take n m.drain with
  | error e => exact ⟨t, rfl⟩
  | ok x =>
    obtain ⟨ps, it⟩ := x
    obtain ⟨t2, e2⟩ := DrainIter.dropLoop_calm (leak := leak) hd (it.todo.length + 2) it t1
    refine ⟨t2, ?_⟩
    simp only [Except.map, show ¬ (2 ≤ 0) from by omega, if_false, show (0 == 1) = false from rfl, e2]
    cases DrainIter.take (it.todo.length + 2) it <;> rfl

/-! Destructors that panic at most once: `P` says that no more panics come. -/
section
variable {d : τ → L ⊕ R → Bool × τ} {P : τ → Prop}

theorem dropAll_once {α : Type} {d : τ → α → Bool × τ} (hP : ∀ t a, P t → (d t a).1 = false ∧ P (d t a).2)
    (hO : ∀ t a, (d t a).1 = true → P (d t a).2) (as : List α) (t : τ) :
    (P t → (dropAll d as t).1 = 0 ∧ P (dropAll d as t).2) ∧ (dropAll d as t).1 ≤ 1 ∧ ((dropAll d as t).1 = 1 → P (dropAll d as t).2) := by
  induction as generalizing t with
  | nil => exact ⟨fun h => ⟨rfl, h⟩, by simp [dropAll], by simp [dropAll]⟩
  | cons a as ih =>
    obtain ⟨i1, i2, i3⟩ := ih (d t a).2
    simp only [dropAll]
    refine ⟨fun h => ?_, ?_, ?_⟩
    · obtain ⟨h1, h2⟩ := hP t a h
      obtain ⟨h3, h4⟩ := i1 h2
      exact ⟨by simp [h1, h3], h4⟩
    all_goals
      cases hb : (d t a).1 with
      | false => simpa using by first | exact i2 | exact i3
      | true =>
        obtain ⟨h3, h4⟩ := i1 (hO t a hb)
        simp [h3, h4]

theorem dropUntil_once {α : Type} {d : τ → α → Bool × τ} (hP : ∀ t a, P t → (d t a).1 = false ∧ P (d t a).2)
    (hO : ∀ t a, (d t a).1 = true → P (d t a).2) (as : List α) (t : τ) :
    (P t → (dropUntil d as t).1 = false ∧ P (dropUntil d as t).2) ∧ ((dropUntil d as t).1 = true → P (dropUntil d as t).2) := by
  induction as generalizing t with
  | nil => exact ⟨fun h => ⟨rfl, h⟩, by simp [dropUntil]⟩
  | cons a as ih =>
    have h1 := hP t a
    have h2 := hO t a
    simp only [dropUntil]
    rcases hd : d t a with ⟨_ | _, t1⟩ <;> rw [hd] at h1 h2
    · exact ⟨fun h => (ih t1).1 (h1 h).2, (ih t1).2⟩
    · exact ⟨fun h => absurd (h1 h).1 (by simp), fun _ => h2 rfl⟩

theorem DrainIter.nextD_once {leak : Bool} (hP : ∀ t a, P t → (d t a).1 = false ∧ P (d t a).2)
    (hO : ∀ t a, (d t a).1 = true → P (d t a).2) {it it' : DrainIter L R} {t t' : τ} {k x} (e : it.nextD leak d t = .ok (k, x, it', t')) :
    (P t → k = 0 ∧ P t') ∧ k ≤ 1 ∧ (k = 1 → P t') := by
  obtain ⟨todo, right⟩ := it
  cases todo with
  | nil =>
    simp only [nextD] at e
    split at e
    · cases e; exact ⟨fun h => ⟨rfl, h⟩, by omega, by omega⟩
    · rename_i r rs _
      obtain ⟨i1, i2⟩ := dropUntil_once hP hO (rs.map fun x => (.inr x.value : L ⊕ R)) t
      split at e
      · rename_i hk
        rw [hk] at i1 i2
        cases e
        exact ⟨fun h => ⟨rfl, (i1 h).2⟩, by omega, by omega⟩
      · rename_i t1 hk
        rw [hk] at i1 i2
        have hp := i2 rfl
        obtain ⟨h1, h2⟩ := hP t1 (.inr r.value) hp
        split at e
        · cases e; exact ⟨fun h => absurd (i1 h).1 (by simp), by omega, fun _ => hp⟩
        · rw [h1] at e
          cases e
          exact ⟨fun h => absurd (i1 h).1 (by simp), by simp, fun _ => h2⟩
  | cons l rest =>
    simp only [nextD, bind, Except.bind, pure, Except.pure] at e
    split at e
    · cases e
    · cases e; exact ⟨fun h => ⟨rfl, h⟩, by omega, by omega⟩

theorem DrainIter.takeD_once {leak : Bool} (hP : ∀ t a, P t → (d t a).1 = false ∧ P (d t a).2)
    (hO : ∀ t a, (d t a).1 = true → P (d t a).2) (n : Nat) {it it' : DrainIter L R} {t t' : τ} {k ps}
    (e : DrainIter.takeD leak d n it t = .ok (k, ps, it', t')) : k ≤ 1 ∧ (k = 1 → P t') := by
  induction n generalizing it t ps with
  | zero => cases e; exact ⟨by omega, by omega⟩
  | succ n ih =>
    simp only [takeD, bind, Except.bind, pure, Except.pure] at e
    split at e
    · cases e
    · rename_i v hv
      obtain ⟨-, h2, h3⟩ := nextD_once hP hO hv
      split at e
      · cases e; exact ⟨by omega, by omega⟩
      · split at e
        · cases e
        · rename_i w hw
          cases e
          exact ih hw
      · cases e; exact ⟨h2, h3⟩

theorem DrainIter.dropLoop_once {leak : Bool} (hP : ∀ t a, P t → (d t a).1 = false ∧ P (d t a).2)
    (hO : ∀ t a, (d t a).1 = true → P (d t a).2) (n : Nat) {u : Bool} {it it' : DrainIter L R} {t t' : τ} {e}
    (hu : u = true → P t) (h : DrainIter.dropLoop leak d n u it t = .ok (e, it', t')) : e ≠ .aborted := by
  induction n generalizing it t u with
  | zero => cases h; cases u <;> simp
  | succ n ih =>
    simp only [dropLoop, bind, Except.bind, pure, Except.pure] at h
    split at h
    · cases h
    · rename_i v hv
      obtain ⟨h1, h2, h3⟩ := nextD_once hP hO hv
      split at h
      · cases h; cases u <;> simp
      · rename_i p it1 t1
        obtain ⟨i1, i2, i3⟩ := dropAll_once hP hO (pieces p) t1
        have hu1 : u = true → P t1 := fun hx => (h1 (hu hx)).2
        split at h
        · rename_i hk
          rw [hk] at i1 i2 i3
          exact ih (fun hx => (i1 (hu1 hx)).2) h
        · rename_i hk
          rw [hk] at i1 i2 i3
          cases u with
          | true => exact absurd (i1 (hu1 rfl)).1 (by simp)
          | false => exact ih (fun _ => i3 rfl) h
        · rename_i a b hk
          rw [hk] at i2
          simp only at i2
          exfalso
          simp_all; omega
      · cases u with
        | true => exact absurd (h1 (hu rfl)).1 (by simp)
        | false => cases h; simp
      · rename_i k o _ _ _ _ _
        simp only at h2
        exfalso
        cases o <;> simp_all <;> omega

theorem drainD_once {leak : Bool} (hP : ∀ t a, P t → (d t a).1 = false ∧ P (d t a).2)
    (hO : ∀ t a, (d t a).1 = true → P (d t a).2) {n : Nat} {t t' : τ} {e ps} {m' : PartialMap L R}
    (h : m.drainD leak d n t = .ok (e, ps, t', m')) : e ≠ .aborted := by
  simp only [drainD, bind, Except.bind, pure, Except.pure] at h
  split at h
  · cases h
  · rename_i v hv
    obtain ⟨h1, h2⟩ := DrainIter.takeD_once hP hO n hv
    rw [if_neg (by omega)] at h
    split at h
    · cases h
    · rename_i w hw
      cases h
      exact DrainIter.dropLoop_once hP hO _ (fun hx => h2 (by simpa using hx)) hw

end
end PartialMap

namespace GroupMap
open GroupSpec
open CycleSpec (split)
open CycleMap (split_perm)
variable {m : GroupMap L R} {c : Contents L R}

theorem retainPairedDropD_ok {hb : BuildHasher L R} (d : τ → L ⊕ R → Bool × τ) (xs ls : List (LRec L R)) (tab : RawTable (LeftItem L)) (t : τ)
    (ht : tab.entries.Perm ((xs ++ ls).map (toL hb))) (ha : (xs ++ ls).Pairwise ApartL) :
    ∃ tab', retainPairedDropD d tab (xs.map (key hb)) t =
        (if (sweep d (fun x : LRec L R => [.inl x.l]) xs t).1 = 0 then .returned else .panicked, (sweep d (fun x : LRec L R => [.inl x.l]) xs t).2.2, tab') ∧
      tab'.entries.Perm (((sweep d (fun x : LRec L R => [.inl x.l]) xs t).2.1 ++ ls).map (toL hb)) ∧
      ∃ gone, xs = gone ++ (sweep d (fun x : LRec L R => [.inl x.l]) xs t).2.1 := by
  induction xs generalizing tab t with
  | nil => exact ⟨tab, rfl, ht, [], rfl⟩
  | cons x xs ih =>
    have ha' := List.pairwise_cons.1 ha
    obtain ⟨t1, e1, p1⟩ := removeL_id (hb := hb) (x := x) (ls := xs ++ ls) ht fun a h => (ha'.1 a h).1.symm
    rcases hd : d t (.inl x.l) with ⟨_ | _, t2⟩
    · obtain ⟨tab', h1, h2, g, h3⟩ := ih t1 t2 p1 ha'.2
      have hs : sweep d (fun x : LRec L R => [.inl x.l]) (x :: xs) t = sweep d (fun x : LRec L R => [.inl x.l]) xs t2 := by simp [sweep, dropAll, hd]
      rw [hs]
      refine ⟨tab', ?_, h2, x :: g, by rw [List.cons_append, ← h3]⟩
      simp only [List.map_cons, retainPairedDropD, key, e1, toL, hd, h1]
    · have hs : sweep d (fun x : LRec L R => [.inl x.l]) (x :: xs) t = (1, xs, t2) := by simp [sweep, dropAll, hd]
      rw [hs]
      refine ⟨t1, ?_, p1, [x], rfl⟩
      simp only [List.map_cons, retainPairedDropD, key, e1, toL, hd]
      simp

/-- `retain_paired` on any map, with destructors that may panic -/
theorem retainPairedD_torn {σ : Type} (h : Repr m c) (f : σ → L → R → Bool × σ) (d : τ → L ⊕ R → Bool × τ) (s : σ) (t : τ) :
    ∃ (v accepted rejected left : List (L × R)) (n : Nat) (s' : σ) (t' : τ) (m' : GroupMap L R), v.Perm c.pairs ∧
      split (fun s p => f s p.1 p.2) v s = (accepted, rejected, s') ∧
      sweep d (fun p => [.inl p.1]) accepted t = (n, left, t') ∧
      m.retainPairedD f d s t = .ok (if n = 0 then .returned else .panicked, s', t', m') ∧
      ShowsTorn m' c.rights (left ++ rejected) c.pairs ∧ m'.hb = m.hb := by
  obtain ⟨ls, rs, h, hf, ha⟩ := h
  have hf := hf trivial
  obtain ⟨xs, hp, e⟩ := h.leftList
  have hlist : m.iterPairedList = .ok (xs.map fun x => (x.l, x.r)) := by
    have := PairedIter.take_ok (h.looks hf) (m.left.len + 1) xs fun x hx => hp.mem_iff.1 hx
    simp only [iterPairedList, iterPaired, e, this, bind, Except.bind, pure, Except.pure]
    rw [List.take_of_length_le]
    have := h.left.length_eq
    simp only [List.length_map] at this
    rw [RawTable.len, this, hp.length_eq]; omega
  have e1 := retainPairedScan_eq h f s xs fun x hx => hp.mem_iff.1 hx
  have hsp := split_perm (fun s (x : LRec L R) => f s x.l x.r) xs s
  have hms := split_mapped (fun s (p : L × R) => f s p.1 p.2) (fun x : LRec L R => (x.l, x.r)) xs s
  generalize split (fun s (x : LRec L R) => f s x.l x.r) xs s = q at e1 hsp hms
  obtain ⟨as, ks, s'⟩ := q
  simp only at e1 hsp hms
  have hls : (as ++ ks).Perm ls := hsp.trans hp
  have h' := h.perm hls.symm (.refl _)
  obtain ⟨tab', e2, h2, gone, h3⟩ := retainPairedDropD_ok d as ks m.left t h'.left h'.wf.apartL
  have hsw := sweep_map d (fun p : L × R => [.inl p.1]) (fun x : LRec L R => (x.l, x.r)) as t
  simp only at hsw
  generalize sweep d (fun x : LRec L R => [(.inl x.l : L ⊕ R)]) as t = w at e2 h2 h3 hsw
  obtain ⟨n, left, t'⟩ := w
  simp only at e2 h2 h3 hsw
  have hall : ((left ++ ks) ++ gone).Perm ls := by
    refine List.Perm.trans ?_ hls
    rw [h3, List.append_assoc gone]
    exact List.perm_append_comm
  have hd : Dangling { m with left := tab' } (left ++ ks) gone rs := ⟨h2, h.right, h.wf.perm hall.symm (.refl _)⟩
  have ht := hd.torn fun x hx => hf x (hall.mem_iff.1 (List.mem_append_left _ hx))
  refine ⟨xs.map fun x => (x.l, x.r), _, _, _, n, s', t', { m with left := tab' }, (hp.map _).trans ha.pairs.symm, hms, hsw, ?_, ?_, rfl⟩
  · simp only [retainPairedD, hlist, e1, bind, Except.bind, pure, Except.pure, e2]
  · refine ht.shows ha.rights ?_ (ha.pairs.trans (hall.map _).symm)
    simp

end GroupMap

omit [RawImpl] [LawfulRaw] in
/-- what `dropTwo` drops: the first elements of the one list, then the first elements of the other -/
theorem dropTwo_spec {α : Type} (d : τ → α → Bool × τ) (as bs : List α) (t : τ) :
    ∃ g1 l1 g2 l2, as = g1 ++ l1 ∧ bs = g2 ++ l2 ∧
      (dropTwo d as bs t) = (endingOf (dropAll d (g1 ++ g2) t).1, (dropAll d (g1 ++ g2) t).2) ∧
      ((dropTwo d as bs t).1 = .returned → l1 = [] ∧ l2 = []) ∧ ((dropTwo d as bs t).1 = .panicked → l1 = [] ∨ l2 = []) := by
  obtain ⟨g1, l1, a1, a2, a3, -⟩ := dropUntil_spec d as t
  obtain ⟨g2, l2, b1, b2, b3, -⟩ := dropUntil_spec d bs (dropUntil d as t).2
  have hall : dropAll d (g1 ++ g2) t = ((if (dropUntil d as t).1 then 1 else 0) + (if (dropUntil d bs (dropUntil d as t).2).1 then 1 else 0),
      (dropUntil d bs (dropUntil d as t).2).2) := by rw [dropAll_append, a2]; simp only; rw [b2]
  refine ⟨g1, l1, g2, l2, a1, b1, ?_⟩
  rw [hall]
  simp only [dropTwo]
  clear hall a2 b2 a1 b1
  rcases h1 : dropUntil d as t with ⟨x, t1⟩
  rw [h1] at a3 b3
  simp only at a3 b3
  rcases h2 : dropUntil d bs t1 with ⟨y, t2⟩
  rw [h2] at b3
  simp only at b3
  cases x <;> cases y <;> simp_all [endingOf]

end Verif
