import Verif.PartialMap.UnwindAlways
import Verif.PartialMap.UnwindValid
import Verif.PartialMap.UnwindClosures
import Verif.Props.Unwind
/-! Properties C110–C112: `PartialCycleMap` when `Hash`, `Eq`, a closure, or the crate itself panics, the panic is caught,
and the map is used further. -/
set_option linter.unusedSectionVars false
namespace Verif.PartialMap
open PartialSpec OptionalPair
open CycleMap (ranU idHash)
variable [RawImpl] [LawfulRaw] {L R : Type} [BEq L] [BEq R] [EquivBEq L] [EquivBEq R]
variable {m m' : PartialMap L R}

/-! ### C110 -/

/-- C110: a call that is not interrupted returns, changes and panics as said by the main model (the one all other
properties are about), and no call is interrupted if the items' own code does not panic. -/
theorem C110_agrees (m : PartialMap L R) (op : Op L R) :
    (∀ f o f' m', execU op f m = .done o f' m' → m.exec op = .ok (o, m')) ∧
    (∀ f p m', execU op f m = .panic (some p) m' → m.exec op = .error p) ∧
    (∃ k, ∀ f, k ≤ f.fuse → ∀ m', execU op f m ≠ .panic none m') := by
  have h := execU_follows (m := m) op
  refine ⟨fun f o f' m' e => ?_, fun f p m' e => ?_, ?_⟩
  · have := h.agrees f; rw [e] at this; exact this
  · have := h.agrees f; rw [e] at this; exact this
  · obtain ⟨k, hk⟩ := h.calm
    refine ⟨k, fun f hf m' e => ?_⟩
    have := (hk f hf).1
    rw [e] at this; cases this

/-- C110: `retain` and `retain_unpaired` with a closure that may panic do what C92 says, on any map; so do `retain_paired`
if `iter_paired` does not panic, and `drain_filter` if the crate itself does not panic (as on every reachable map, see
`C92_retain_paired` and `C92_drain_filter`). -/
theorem C110_closures {σ : Type} (m : PartialMap L R) (g : σ → OptionalPair L R → Option Bool × σ) (s : σ) :
    Unw.AsSaid (callU (.retain σ g s)) m (m.retainP g s) ∧
    Unw.AsSaid (callU (.retainUnpaired σ g s)) m (m.retainUnpairedP g s) ∧
    (∀ (h : σ → L → R → Option Bool × σ) ps, m.iterPairedList = .ok ps →
      Unw.AsSaid (callU (.retainPaired σ h s)) m (m.retainPairedP (fun s p => h s p.1 p.2) s)) ∧
    (∀ n f e ps s' m', m.drainFilterP g s n = .ok (e, ps, s', m') → callU (.drainFilter σ g s n) f m =
      match e with
      | .returned => .done (.entries ps) f m'
      | .panicked => .panic none m'
      | .aborted => .abort) := by
  refine ⟨(retainU_obeys g s).asSaid, (retainUnpairedU_obeys g s).asSaid, fun h ps e => (retainPairedU_obeys h s e).asSaid,
    fun n f e ps s' m' h => ?_⟩
  have h1 := drainFilterU_eq h f
  simp only [callU, bind]
  rw [h1]
  cases e <;> rfl

/-- C110: after any history in which calls end with a panic of `Hash`, `Eq` or a closure, or with a panic of the crate,
and the panics are caught, every item is stored under its own hash, no side yields an item twice, `contains_left` and
`contains_right` agree with `iter_left` and `iter_right`, the lengths count the items, and `hasher()` is what the map was
made with. -/
theorem C110_items (n : Nat) (hb : BuildHasher L R) (calls : List (Fate × Call L R)) (hc : LawfulCalls calls)
    (h : (withCapacityAndHasher n hb).runU calls = some m) :
    (∀ e ∈ m.left.entries, e.1 = hb.hl e.2.value) ∧ (∀ e ∈ m.right.entries, e.1 = hb.hr e.2.value) ∧
    m.iterLeft.Pairwise (fun a b => (a == b) = false) ∧ m.iterRight.Pairwise (fun a b => (a == b) = false) ∧
    (∀ l, m.containsLeft l = m.iterLeft.any (l == ·)) ∧ (∀ r, m.containsRight r = m.iterRight.any (r == ·)) ∧
    m.lenLeft = m.iterLeft.length ∧ m.lenRight = m.iterRight.length ∧ m.hasher = hb := by
  obtain ⟨h1, h2⟩ := runU_always (withCapacity_always n hb) hc h
  change m.hb = hb at h2
  subst h2
  obtain ⟨a1, a2, a3, a4, a5, a6, a7, a8⟩ := h1.items
  exact ⟨a1, a2, a3, a4, a5, a6, a7, a8, rfl⟩

/-- C110: after such a history, if `insert(l, r)` returns then both items are there and `are_paired`; if `insert_left(l)`
or `insert_right(r)` returns then the item is there and not paired. -/
theorem C110_insert (n : Nat) (hb : BuildHasher L R) (calls : List (Fate × Call L R)) (hc : LawfulCalls calls)
    (h : (withCapacityAndHasher n hb).runU calls = some m) :
    (∀ l r o m', m.insert l r = .ok (o, m') → m'.containsLeft l = true ∧ m'.containsRight r = true ∧
      m'.arePaired l r = true ∧ m'.isLeftPaired l = true ∧ m'.isRightPaired r = true) ∧
    (∀ l o m', m.insertLeft l = .ok (o, m') → m'.containsLeft l = true ∧ m'.isLeftPaired l = false) ∧
    (∀ r o m', m.insertRight r = .ok (o, m') → m'.containsRight r = true ∧ m'.isRightPaired r = false) :=
  (runU_always (withCapacity_always n hb) hc h).1.insert_effect

/-- C110: after such a history, if a removal of an item returns then the item is not there any more.  (And `clear()`
makes any map as good as new, see `C97_clear`.) -/
theorem C110_remove (n : Nat) (hb : BuildHasher L R) (calls : List (Fate × Call L R)) (hc : LawfulCalls calls)
    (h : (withCapacityAndHasher n hb).runU calls = some m) :
    (∀ l o m', m.removeViaLeft l = .ok (o, m') → m'.containsLeft l = false) ∧
    (∀ r o m', m.removeViaRight r = .ok (o, m') → m'.containsRight r = false) ∧
    (∀ l o m', m.removeLeft l = .ok (o, m') → m'.containsLeft l = false) ∧
    (∀ r o m', m.removeRight r = .ok (o, m') → m'.containsRight r = false) :=
  (runU_always (withCapacity_always n hb) hc h).1.remove_effect

/-- a history in which `Eq` panics during a `swap_left`, then a closure during `retain`, then the crate during
`remove_via_right` -/
def Demo.panicking : List (Fate × Call Nat Nat) :=
  [(⟨99, none⟩, .plain (.insert 1 10)), (⟨99, none⟩, .plain (.insertLeft 2)), (⟨4, none⟩, .plain (.swapLeft 1 5)),
    (⟨99, none⟩, .retain Unit (fun _ _ => (none, ())) ()), (⟨99, none⟩, .plain (.removeViaRight 10)),
    (⟨99, none⟩, .plain (.insert 6 60))]

omit [RawImpl] [LawfulRaw] in
theorem Demo.panicking_lawful : LawfulCalls panicking := by
  intro f cl cr h; simp [panicking] at h

open Demo in
/-- the hypotheses of C110 are met by a map that is broken indeed: `1` says it is paired, but has no partner -/
example : letI := tidyRaw
    ∃ m, (withCapacityAndHasher 0 idHash).runU panicking = some m ∧ LawfulCalls panicking ∧
      m.lenLeft = 3 ∧ m.lenRight = 1 ∧ m.isLeftPaired 1 = true ∧ m.getRight 1 = none := by
  let _ := tidyRaw
  obtain ⟨m, e, h⟩ := ranU (e := (withCapacityAndHasher 0 idHash).runU panicking)
    (p := fun m => decide (m.lenLeft = 3 ∧ m.lenRight = 1 ∧ m.isLeftPaired 1 = true ∧ m.getRight 1 = none)) (by decide +kernel)
  exact ⟨m, e, panicking_lawful, of_decide_eq_true h⟩

open Demo in
/-- all three kinds of outcomes of C110_agrees occur: returning, a panic of the crate, a panic of the items' code -/
example : letI := tidyRaw
    ∃ m, (withCapacityAndHasher 0 idHash).runU (panicking.take 4) = some m ∧
      (match execU (.removeViaRight 10) ⟨99, none⟩ m with | .panic (some .unwrapNone) _ => true | _ => false) = true ∧
      (match execU (.removeViaRight 10) ⟨1, none⟩ m with | .panic none _ => true | _ => false) = true ∧
      (match execU (.removeViaRight 20) ⟨99, none⟩ m with | .done _ _ _ => true | _ => false) = true := by
  let _ := tidyRaw
  obtain ⟨m, e, h⟩ := ranU (e := (withCapacityAndHasher 0 idHash).runU (panicking.take 4))
    (p := fun m => (match execU (.removeViaRight 10) ⟨99, none⟩ m with | .panic (some .unwrapNone) _ => true | _ => false) &&
      ((match execU (.removeViaRight 10) ⟨1, none⟩ m with | .panic none _ => true | _ => false) &&
      (match execU (.removeViaRight 20) ⟨99, none⟩ m with | .done _ _ _ => true | _ => false))) (by decide +kernel)
  refine ⟨m, e, ?_⟩
  rw [Bool.and_eq_true, Bool.and_eq_true] at h
  exact h

/-- a closure that rejects what it sees first, accepts the second and panics on the third: all four calls are ended by that
panic, unless there are only two entries to be seen -/
example : letI := tidyRaw
    let g : Nat → OptionalPair Nat Nat → Option Bool × Nat := fun s _ => (if s == 2 then none else some (s == 1), s + 1)
    ∃ m, (withCapacityAndHasher 0 idHash).runU [(⟨99, none⟩, .plain (.extend [someBoth 1 10, someLeft 2, someBoth 3 30]))] = some m ∧
      (match callU (.retain Nat g 0) ⟨99, none⟩ m, m.retainP g 0 with
        | .panic none m', .ok (.panicked, 3, m'') => m'.lenLeft == 3 && m''.lenLeft == 3 | _, _ => false) = true ∧
      (match callU (.retainPaired Nat (fun s l r => g s (someBoth l r)) 0) ⟨99, none⟩ m, m.retainPairedP (fun s p => g s (someBoth p.1 p.2)) 0 with
        | .done _ _ m', .ok (.returned, 2, m'') => m'.lenLeft == 2 && m''.lenLeft == 2 | _, _ => false) = true ∧
      (match callU (.retainUnpaired Nat g 2) ⟨99, none⟩ m, m.retainUnpairedP g 2 with
        | .panic none m', .ok (.panicked, 3, m'') => m'.lenLeft == 3 && m''.lenLeft == 3 | _, _ => false) = true ∧
      (match callU (.drainFilter Nat g 0 5) ⟨0, none⟩ m, m.drainFilterP g 0 5 with
        | .panic none m', .ok (.panicked, [_], _, m'') => m'.lenLeft == 2 && m''.lenLeft == 2 | _, _ => false) = true := by
  let _ := tidyRaw
  intro g
  obtain ⟨m, e, h⟩ := ranU
    (e := (withCapacityAndHasher 0 idHash).runU [(⟨99, none⟩, .plain (.extend [someBoth 1 10, someLeft 2, someBoth 3 30]))])
    (p := fun m => (match callU (.retain Nat g 0) ⟨99, none⟩ m, m.retainP g 0 with
        | .panic none m', .ok (.panicked, 3, m'') => m'.lenLeft == 3 && m''.lenLeft == 3 | _, _ => false) &&
      ((match callU (.retainPaired Nat (fun s l r => g s (someBoth l r)) 0) ⟨99, none⟩ m, m.retainPairedP (fun s p => g s (someBoth p.1 p.2)) 0 with
        | .done _ _ m', .ok (.returned, 2, m'') => m'.lenLeft == 2 && m''.lenLeft == 2 | _, _ => false) &&
      ((match callU (.retainUnpaired Nat g 2) ⟨99, none⟩ m, m.retainUnpairedP g 2 with
        | .panic none m', .ok (.panicked, 3, m'') => m'.lenLeft == 3 && m''.lenLeft == 3 | _, _ => false) &&
      (match callU (.drainFilter Nat g 0 5) ⟨0, none⟩ m, m.drainFilterP g 0 5 with
        | .panic none m', .ok (.panicked, [_], _, m'') => m'.lenLeft == 2 && m''.lenLeft == 2 | _, _ => false)))) (by decide +kernel)
  simp only [Bool.and_eq_true] at h
  exact ⟨m, e, h⟩

/-! ### C111 -/

/-- a map that shows the entries `c` and goes on working like them -/
def Works (m : PartialMap L R) (c : List (OptionalPair L R)) : Prop :=
  Shows m c ∧ ∀ ops, SafeRun m.hb c ops → ∃ os m' c', m.run ops = .ok (os, m') ∧ Steps c ops os c' ∧ Shows m' c'

theorem Repr.works {c : List (OptionalPair L R)} (h : Repr m c) : Works m c := by
  refine ⟨h.shows, fun ops hs => ?_⟩
  obtain ⟨os, m', c', e, s, h', -⟩ := run_simulates rfl h hs
  exact ⟨os, m', c', e, s, h'.shows⟩

omit [RawImpl] [LawfulRaw] in
/-- C111 in full: a call on a map that is interrupted by a panic of `Hash` or `Eq` leaves a one-to-one map.  False, see
`C111_false`. -/
def C111_full : Prop :=
  ∀ [RawImpl] [LawfulRaw] [LawfulCap] (L R : Type) [BEq L] [BEq R] [EquivBEq L] [EquivBEq R] (m m' : PartialMap L R)
    (c : List (OptionalPair L R)) (op : Op L R) (f : Fate), Reachable m → Shows m c → execU op f m = .panic none m' →
    ∃ d, Leaves c op d ∧ Works m' d

/-- C111, what holds: an interrupted call leaves a map that works, and it holds the old entries except those the call had
already removed (`Leaves`: lookups, removals, `pair`, `unpair`, `pair_forced`, `pair_forced_remove`, iteration, the
`retain` calls and `shrink_to_…` leave all entries; `insert…` and `swap_…` may have removed the old entry of the item to
be put in).  Missing (`Smooth`): `insert…` and `extend` that make a table grow, `swap_…` of a paired item, `reserve_…` that
moves the elements within a table. -/
theorem C111_partial [LawfulCap] {c : List (OptionalPair L R)} (hm : Reachable m) (hc : Shows m c) (op : Op L R) (f : Fate)
    (hs : Smooth m f.survive op) (e : execU op f m = .panic none m') : ∃ d, Leaves c op d ∧ Works m' d := by
  have h := execU_leaves (hm.repr_of_shows hc) op f.survive hs f rfl
  rw [e] at h
  obtain ⟨d, h1, h2⟩ := h rfl
  exact ⟨d, h1, h2.works⟩

/-- C111, what holds for `retain`, `retain_paired` and `retain_unpaired`: if the closure (or `Hash` or `Eq`) panics,
nothing has been removed, whatever map it is. -/
theorem C111_retain_partial (m m' : PartialMap L R) (f : Fate) :
    (∀ (σ : Type) (g : σ → OptionalPair L R → Option Bool × σ) (s : σ), callU (.retain σ g s) f m = .panic none m' → m' = m) ∧
    (∀ (σ : Type) (g : σ → L → R → Option Bool × σ) (s : σ), callU (.retainPaired σ g s) f m = .panic none m' → m' = m) ∧
    (∀ (σ : Type) (g : σ → OptionalPair L R → Option Bool × σ) (s : σ),
      callU (.retainUnpaired σ g s) f m = .panic none m' → m' = m) := by
  have key : ∀ (x : Unw (PartialMap L R) Unit), Same x m →
      (x >>= fun _ => pure (Out.unit : Out L R)) f m = .panic none m' → m' = m := by
    intro x hx e
    have h := hx.bind (g := fun _ => (pure .unit : Unw _ (Out L R))) (J' := fun _ _ => True) (fun _ _ _ => .pure trivial) f trivial
    rw [e] at h
    exact h rfl
  exact ⟨fun σ g s e => key _ (retainU_same g s) e, fun σ g s e => key _ (retainPairedU_same g s) e,
    fun σ g s e => key _ (retainUnpairedU_same g s) e⟩

/-- `insert(1, 50)` on the pair `(1, 10)` and the lone `2` and `20`, with room, where the hash of `50` panics: `(1, 10)` is
gone, `2` and `20` are there; and `swap_left(&2, 1)` interrupted at its last probe has removed `(1, 10)` only -/
example : letI := swissRaw 4
    ∃ os m, (withCapacityAndHasher 9 spreadHash).run [.insert 1 10, .insertLeft 2, .insertRight 20] = .ok (os, m) ∧
      Smooth m none (.insert 1 50) ∧ Smooth m none (.swapLeft 2 1) ∧ m.containsLeft 2 = true ∧
      ((execU (.insert 1 50) ⟨2, none⟩ m).leaves fun m' : PartialMap Nat Nat =>
        m'.containsLeft 2 && m'.containsRight 20 && !m'.containsLeft 1 && m'.lenRight == 1) = true ∧
      ((execU (.swapLeft 2 1) ⟨7, none⟩ m).leaves fun m' : PartialMap Nat Nat =>
        m'.containsLeft 2 && m'.containsRight 20 && !m'.containsLeft 1 && m'.lenRight == 1) = true := by
  let _ := swissRaw 4
  obtain ⟨x, e, h⟩ := ran (e := (withCapacityAndHasher 9 spreadHash).run [.insert 1 10, .insertLeft 2, .insertRight 20])
    (p := fun x => decide ((1 ≤ RawImpl.growthLeft x.2.left ∧ 1 ≤ RawImpl.growthLeft x.2.right) ∧
        x.2.isLeftPaired 2 = false ∧ x.2.containsLeft 2 = true) &&
      ((execU (.insert 1 50) ⟨2, none⟩ x.2).leaves (fun m' : PartialMap Nat Nat =>
        m'.containsLeft 2 && m'.containsRight 20 && !m'.containsLeft 1 && m'.lenRight == 1) &&
      (execU (.swapLeft 2 1) ⟨7, none⟩ x.2).leaves (fun m' : PartialMap Nat Nat =>
        m'.containsLeft 2 && m'.containsRight 20 && !m'.containsLeft 1 && m'.lenRight == 1))) (by decide +kernel)
  rw [Bool.and_eq_true, Bool.and_eq_true, decide_eq_true_eq] at h
  exact ⟨_, _, e, h.1.1, ⟨h.1.2.1, fun _ => ⟨h.1.1.1, Nat.zero_le _⟩⟩, h.1.2.2, h.2⟩

/-- three pairs, as many as a table of four buckets holds -/
def Demo.three : List (Fate × Call Nat Nat) :=
  [(⟨99, none⟩, .plain (.insert 1 10)), (⟨99, none⟩, .plain (.insert 2 20)), (⟨99, none⟩, .plain (.insert 3 30))]

omit [RawImpl] [LawfulRaw] in
/-- the witness: `Eq` panics in the last probe of `swap_left(&1, 2)`.  The right item already has the hash of `2`, the left
table still holds `1`: both items say they are paired, `10` with `1`, but `1` has no partner, the two are not
`are_paired`, and `remove_via_left(&1)` panics. -/
theorem C111_witness : letI := swissRaw 4
    ∃ m m', (withCapacityAndHasher 0 idHash).runU [(⟨99, none⟩, .plain (.insert 1 10))] = some m ∧
      m.arePaired 1 10 = true ∧ execU (.swapLeft 1 2) ⟨4, none⟩ m = .panic none m' ∧
      m'.isLeftPaired 1 = true ∧ m'.isRightPaired 10 = true ∧ m'.getRight 1 = none ∧ m'.getLeft 10 = some 1 ∧
      m'.arePaired 1 10 = false ∧ (m'.removeViaLeft 1).toOption.isSome = false := by
  let _ := swissRaw 4
  obtain ⟨m, e, h⟩ := ranU (e := (withCapacityAndHasher 0 idHash).runU [(⟨99, none⟩, .plain (.insert 1 10))])
    (p := fun m => decide (m.arePaired 1 10 = true) &&
      (execU (.swapLeft 1 2) ⟨4, none⟩ m).leaves fun m' : PartialMap Nat Nat =>
        decide (m'.isLeftPaired 1 = true ∧ m'.isRightPaired 10 = true ∧ m'.getRight 1 = none ∧
          m'.getLeft 10 = some 1 ∧ m'.arePaired 1 10 = false ∧ (m'.removeViaLeft 1).toOption.isSome = false))
    (by decide +kernel)
  rw [Bool.and_eq_true, decide_eq_true_eq] at h
  obtain ⟨m', e', h'⟩ := Halt.of_leaves h.2
  exact ⟨m, m', e, h.1, e', of_decide_eq_true h'⟩

omit [RawImpl] [LawfulRaw] in
/-- the second witness: `Hash` panics while the right table grows during `insert(4, 40)`; `4` says it is paired and has no
partner.  It can neither be removed nor be inserted again: both panic. -/
theorem C111_witness_insert : letI := swissRaw 4
    ∃ m m', (withCapacityAndHasher 0 idHash).runU Demo.three = some m ∧
      execU (.insert 4 40) ⟨10, none⟩ m = .panic none m' ∧
      m'.isLeftPaired 4 = true ∧ m'.getRight 4 = none ∧ m'.containsRight 40 = false ∧
      (m'.removeLeft 4).toOption.isSome = false ∧ (m'.insert 4 40).toOption.isSome = false := by
  let _ := swissRaw 4
  obtain ⟨m, e, h⟩ := ranU (e := (withCapacityAndHasher 0 idHash).runU Demo.three)
    (p := fun m => (execU (.insert 4 40) ⟨10, none⟩ m).leaves fun m' : PartialMap Nat Nat =>
      decide (m'.isLeftPaired 4 = true ∧ m'.getRight 4 = none ∧ m'.containsRight 40 = false ∧
        (m'.removeLeft 4).toOption.isSome = false ∧ (m'.insert 4 40).toOption.isSome = false))
    (by decide +kernel)
  obtain ⟨m', e', h'⟩ := Halt.of_leaves h
  exact ⟨m, m', e, e', of_decide_eq_true h'⟩

omit [RawImpl] [LawfulRaw] in
theorem C111_false : ¬ C111_full := by
  intro h
  let _ := swissRaw 4; have := swissRaw_lawful 4; have := swissRaw_cap 4
  obtain ⟨x, e, hx⟩ := ran (e := (withCapacityAndHasher 0 idHash).exec (.insert 1 10))
    (p := fun x => (execU (.swapLeft 1 2) ⟨4, none⟩ x.2).leaves fun m' : PartialMap Nat Nat =>
      decide (m'.getRight 1 = none ∧ m'.isLeftPaired 1 = true)) (by decide +kernel)
  have hr : Reachable x.2 := .step (.withCapacity 0 idHash) (by simp) (by simp) (by simp) e
  obtain ⟨m', e', h'⟩ := Halt.of_leaves hx
  obtain ⟨h1, h2⟩ := of_decide_eq_true h'
  obtain ⟨c, hc⟩ := hr.repr
  obtain ⟨d, _, hd, _⟩ := h Nat Nat _ m' c _ _ hr hc.shows e'
  rw [hd.getRight] at h1
  rw [hd.isLeftPaired] at h2
  obtain ⟨p, hp, hl⟩ := List.any_eq_true.1 h2
  rw [Bool.and_eq_true] at hl
  rw [mem_findL hd.oneToOne hp hl.2] at h1
  cases p with
  | someBoth a b => cases h1
  | _ => cases hl.1

/-! ### C112 -/

/-- C112: the only panics of the crate itself on a reachable map are the `unreachable!`s of `swap_left_or_insert` and
`swap_right_or_insert` (see `C49`), and they leave a map that works: the pair has been inserted. -/
theorem C112_own_panic {c : List (OptionalPair L R)} (hm : Reachable m) (hc : Shows m c) (op : Op L R) (f : Fate) (p : Panic)
    (e : execU op f m = .panic (some p) m') :
    p = .unreachable ∧
    ((∃ old new r, op = .swapLeftOrInsert old new r ∧ Works m' (PartialSpec.insert c new r).2) ∨
     (∃ old new l, op = .swapRightOrInsert old new l ∧ Works m' (PartialSpec.insert c l new).2)) := by
  have h := hm.repr_of_shows hc
  have e1 := (C110_agrees m op).2.1 f p m' e
  -- the insertion of the pair: if it panics, it is not for a reason of its own
  have ins : ∀ (l : L) (r : R) (P : PartialMap L R → Prop), Unw.Ends (insertU l r) m
      (fun o m' => m.insert l r = .ok (o, m')) (fun w m' => w = some .unreachable → P m') := by
    intro l r P
    refine ((insertU_follows l r).ends (J := fun _ _ => True) ?_).mono (fun _ _ h => h.1) fun _ _ h => h
    refine Unw.Ends.bind (K := fun _ _ => True) ?_ fun _ _ _ => Unw.Ends.bind (K := fun _ _ => True) ?_ fun _ _ _ =>
      .user_bind (by simp) <| .user_bind (by simp) <| .get_bind <| RawTable.ends_grow_bind (fun _ _ _ => by simp) <|
      .get_bind <| RawTable.ends_grow_bind (fun _ _ _ => by simp) <| .pure trivial
    · refine .user_bind (by simp) <| .user_bind (by simp) <| .get_bind ?_
      simp only
      repeat' first | exact .pure trivial | exact .fail (by simp) | refine .set_bind ?_ | split
    · refine .user_bind (by simp) <| .user_bind (by simp) <| .get_bind ?_
      simp only
      repeat' first | exact .pure trivial | exact .fail (by simp) | refine .set_bind ?_ | split
  have hs : ¬ Safe m.hb c op := by
    intro hs
    obtain ⟨o, m1, c', e2, -⟩ := exec_simulates h hs
    rw [e2] at e1; cases e1
  cases op
  case unpair l r => cases e1
  case clone => cases e1
  case drainFilter σ g s n =>
    obtain ⟨d1, us, d2, m1, -, -, -, -, -, e2, -⟩ := drainFilterTake_refines h g s n
    simp only [exec, e2, bind, Except.bind, pure, Except.pure] at e1
    cases e1
  case swapLeftOrInsert old new r =>
    have e2 := swapLeftOrInsert_panics h old new r hs
    simp only [exec, e2, bind, Except.bind] at e1
    cases e1
    refine ⟨rfl, .inl ⟨old, new, r, rfl, ?_⟩⟩
    have h1 : Unw.Ends (execU (.swapLeftOrInsert old new r)) m (fun _ _ => True)
        (fun w m' => w = some .unreachable → Repr m' (PartialSpec.insert c new r).2) := by
      refine Unw.Ends.bind (K := fun _ _ => True) (.user_bind (by simp) <| .user_bind (by simp) <| .get_bind ?_) fun _ _ _ => .pure trivial
      have ho : (m.left.get (m.hb.hl old) (equivalentKey old)).isSome = false := by
        rw [findL_isSome h]; simpa using fun h => hs (.inl h)
      rw [if_neg (by rw [ho]; simp)]
      refine Unw.Ends.bind (ins new r _) ?_
      intro o m1 e3
      obtain ⟨m2, e4, h4, -⟩ := insert_refines h new r
      rw [e4] at e3; cases e3
      generalize (PartialSpec.insert c new r).1 = o
      repeat' first | exact .pure trivial | exact .fail fun _ => h4 | split
    have h2 := h1 f trivial
    rw [e] at h2
    exact (h2 rfl).works
  case swapRightOrInsert old new l =>
    have e2 := swapRightOrInsert_panics h old new l hs
    simp only [exec, e2, bind, Except.bind] at e1
    cases e1
    refine ⟨rfl, .inr ⟨old, new, l, rfl, ?_⟩⟩
    have h1 : Unw.Ends (execU (.swapRightOrInsert old new l)) m (fun _ _ => True)
        (fun w m' => w = some .unreachable → Repr m' (PartialSpec.insert c l new).2) := by
      refine Unw.Ends.bind (K := fun _ _ => True) (.user_bind (by simp) <| .user_bind (by simp) <| .get_bind ?_) fun _ _ _ => .pure trivial
      have ho : (m.right.get (m.hb.hr old) (equivalentKey old)).isSome = false := by
        rw [findR_isSome h]; simpa using fun h => hs (.inl h)
      rw [if_neg (by rw [ho]; simp)]
      refine Unw.Ends.bind (ins l new _) ?_
      intro o m1 e3
      obtain ⟨m2, e4, h4, -⟩ := insert_refines h l new
      rw [e4] at e3; cases e3
      generalize (PartialSpec.insert c l new).1 = o
      repeat' first | exact .pure trivial | exact .fail fun _ => h4 | split
    have h2 := h1 f trivial
    rw [e] at h2
    exact (h2 rfl).works
  all_goals exact absurd trivial hs

/-- `swap_left_or_insert(&5, 1, 60)` and `swap_right_or_insert(&50, 10, 6)` panic that way on the pair `(1, 10)` and the lone
left item `2` -/
example : letI := swissRaw 4
    ∃ os m, (withCapacityAndHasher 0 spreadHash).run [.insert 1 10, .insertLeft 2] = .ok (os, m) ∧
      (match execU (.swapLeftOrInsert 5 1 60) ⟨99, none⟩ m with
        | .panic (some .unreachable) m' => m'.arePaired 1 60 && m'.lenRight == 1
        | _ => false) = true ∧
      (match execU (.swapRightOrInsert 50 10 6) ⟨99, none⟩ m with
        | .panic (some .unreachable) m' => m'.arePaired 6 10 && m'.lenLeft == 2
        | _ => false) = true := by
  let _ := swissRaw 4
  obtain ⟨x, e, h⟩ := ran (e := (withCapacityAndHasher 0 spreadHash).run [.insert 1 10, .insertLeft 2])
    (p := fun x => (match execU (.swapLeftOrInsert 5 1 60) ⟨99, none⟩ x.2 with
        | .panic (some .unreachable) m' => m'.arePaired 1 60 && m'.lenRight == 1
        | _ => false) &&
      (match execU (.swapRightOrInsert 50 10 6) ⟨99, none⟩ x.2 with
        | .panic (some .unreachable) m' => m'.arePaired 6 10 && m'.lenLeft == 2
        | _ => false)) (by decide +kernel)
  rw [Bool.and_eq_true] at h
  exact ⟨_, _, e, h⟩

end Verif.PartialMap
