import Verif.CycleMap.UnwindAlways
import Verif.CycleMap.UnwindValid
import Verif.CycleMap.UnwindClosures
import Verif.Props.Always
/-! Properties C105–C107: `Hash`, `Eq`, a closure, or the crate itself panics, the panic is caught, and the map is used
further. -/
set_option linter.unusedSectionVars false
namespace Verif.CycleMap
open CycleSpec OptionalPair
variable [RawImpl] [LawfulRaw] {L R : Type} [BEq L] [BEq R] [EquivBEq L] [EquivBEq R]
variable {m m' : CycleMap L R}

/-! ### C105 -/

/-- C105: a call that is not interrupted returns, changes and panics as said by the main model (the one all other
properties are about), and no call is interrupted if the items' own code does not panic. -/
theorem C105_agrees (m : CycleMap L R) (op : Op L R) :
    (∀ f o f' m', execU op f m = .done o f' m' → m.exec op = .ok (o, m')) ∧
    (∀ f p m', execU op f m = .panic (some p) m' → m.exec op = .error p) ∧
    (∃ k, ∀ f, k ≤ f.fuse → ∀ m', execU op f m ≠ .panic none m') := by
  have h := execU_follows (m := m) op
  refine ⟨fun f o f' m' e => ?_, fun f p m' e => ?_, ?_⟩
  · have := h.agrees f; rw [e] at this; exact this
  · have := h.agrees f; rw [e] at this; exact this
  · obtain ⟨k, hk⟩ := h.calm
    refine ⟨k, fun f hf m' e => ?_⟩
    have := (hk f hf).1
    rw [e] at this; cases this

/-- A call that runs a closure does what `r` says, where `r` is the outcome if only the closure may panic: if it returns,
`r` returns with the same map; if the crate panics, `r` says so; and if `Hash` and `Eq` do not panic, but the call does, then the
closure panics in `r`, and leaves the same map. -/
def _root_.Verif.Unw.AsSaid {M α σ : Type} (x : Unw M α) (m : M) (r : Res (Ending × σ × M)) : Prop :=
  (∀ f a f' m', x f m = .done a f' m' → ∃ s, r = .ok (.returned, s, m')) ∧
  (∀ f p m', x f m = .panic (some p) m' → r = .error p) ∧
  (∃ k, ∀ f, k ≤ f.fuse → ∀ m', x f m = .panic none m' → ∃ e s, e ≠ .returned ∧ r = .ok (e, s, m'))

omit [RawImpl] [LawfulRaw] in
theorem _root_.Verif.Unw.Obeys.asSaid {M α σ : Type} {x : Unw M Unit} {m : M} {r : Res (Ending × σ × M)} {b : α}
    (h : Unw.Obeys x m (do
      let (e, _, m') ← r
      return (if e = .returned then some () else none, m'))) : Unw.AsSaid (do x; return b : Unw M α) m r := by
  have run : ∀ f, (do x; return b : Unw M α) f m = match x f m with
      | .done _ f' m' => .done b f' m'
      | .panic why m' => Halt.panic why m'
      | .abort => .abort := by
    intro f
    simp only [bind]
    cases x f m <;> rfl
  refine ⟨fun f a f' m' e => ?_, fun f p m' e => ?_, ?_⟩
  · rw [run] at e
    cases hx : x f m with
    | done u f1 m1 =>
      rw [hx] at e; cases e
      have := h.returns f u f' m' hx
      match r, this with
      | .ok (.returned, s, m2), this => cases this; exact ⟨s, rfl⟩
      | .ok (.panicked, s, m2), this => cases this
      | .ok (.aborted, s, m2), this => cases this
      | .error p, this => cases this
    | panic why m1 => rw [hx] at e; cases e
    | abort => rw [hx] at e; cases e
  · rw [run] at e
    cases hx : x f m with
    | done u f1 m1 => rw [hx] at e; cases e
    | panic why m1 =>
      rw [hx] at e; cases e
      have := h.fails f p m' hx
      match r, this with
      | .error q, this => cases this; rfl
    | abort => rw [hx] at e; cases e
  · obtain ⟨k, hk⟩ := h.calm
    refine ⟨k, fun f hf m' e => ?_⟩
    rw [run] at e
    cases hx : x f m with
    | done u f1 m1 => rw [hx] at e; cases e
    | panic why m1 =>
      rw [hx] at e; cases e
      have := (hk f hf).1 m' hx
      match r, this with
      | .ok (.returned, s, m2), this => cases this
      | .ok (.panicked, s, m2), this => cases this; exact ⟨_, s, by simp, rfl⟩
      | .ok (.aborted, s, m2), this => cases this; exact ⟨_, s, by simp, rfl⟩
      | .error q, this => cases this
    | abort => rw [hx] at e; cases e

/-- C105: `retain` with a closure that may panic does what C80 says, on any map; so does `drain_filter`, if the crate itself
does not panic (as on every reachable map, see `C80_drain_filter`). -/
theorem C105_closures {σ : Type} (m : CycleMap L R) (g : σ → L → R → Option Bool × σ) (s : σ) :
    Unw.AsSaid (callU (.retain σ g s)) m (m.retainP g s) ∧
    (∀ n f e ps s' m', m.drainFilterP g s n = .ok (e, ps, s', m') → callU (.drainFilter σ g s n) f m =
      match e with
      | .returned => .done (.pairs ps) f m'
      | .panicked => .panic none m'
      | .aborted => .abort) := by
  refine ⟨(retainU_obeys g s).asSaid, fun n f e ps s' m' h => ?_⟩
  have h1 := drainFilterU_eq h f
  simp only [callU, bind]
  rw [h1]
  cases e <;> rfl

/-- C105: after any history in which calls end with a panic of `Hash`, `Eq` or a closure, or with a panic of the crate,
and the panics are caught, every item is stored under its own hash, no side yields an item twice, `contains_left` and
`contains_right` agree with `iter_left` and `iter_right`, `len` counts the left items, no id is in use twice on the left,
and `hasher()` is what the map was made with. -/
theorem C105_items (n : Nat) (hb : BuildHasher L R) (calls : List (Fate × Call L R)) (hc : LawfulCalls calls)
    (h : (withCapacityAndHasher n hb).runU calls = some m) :
    (∀ e ∈ m.left.entries, e.1 = hb.hl e.2.value) ∧ (∀ e ∈ m.right.entries, e.1 = hb.hr e.2.value) ∧
    m.iterLeft.Pairwise (fun a b => (a == b) = false) ∧ m.iterRight.Pairwise (fun a b => (a == b) = false) ∧
    (∀ l, m.containsLeft l = m.iterLeft.any (l == ·)) ∧ (∀ r, m.containsRight r = m.iterRight.any (r == ·)) ∧
    m.len = m.iterLeft.length ∧ (m.left.toList.map (·.id)).Nodup ∧ m.hasher = hb := by
  obtain ⟨h1, h2⟩ := runU_always (withCapacity_always n hb) hc h
  change m.hb = hb at h2
  subst h2
  obtain ⟨a1, a2, a3, a4, a5, a6, a7⟩ := h1.items
  exact ⟨a1, a2, a3, a4, a5, a6, a7, h1.ids.1, rfl⟩

/-- C105: after such a history, if `insert(l, r)` returns then both items are there and `are_paired`; if a removal
returns then the item is not there any more.  (And `clear()` makes any map as good as new, see `C97_clear`.) -/
theorem C105_effect (n : Nat) (hb : BuildHasher L R) (calls : List (Fate × Call L R)) (hc : LawfulCalls calls)
    (h : (withCapacityAndHasher n hb).runU calls = some m) :
    (∀ l r o m', m.insert l r = .ok (o, m') →
      m'.containsLeft l = true ∧ m'.containsRight r = true ∧ m'.arePaired l r = true) ∧
    (∀ l o m', m.removeViaLeft l = .ok (o, m') → m'.containsLeft l = false ∧ m'.getRight l = none) ∧
    (∀ r o m', m.removeViaRight r = .ok (o, m') → m'.containsRight r = false ∧ m'.getLeft r = none) := by
  obtain ⟨h1, -⟩ := runU_always (withCapacity_always n hb) hc h
  exact ⟨fun l r o m' e => h1.insert_effect e, h1.remove_effect⟩

/-- a history in which `Eq` panics during a `swap_left`, then a closure during `retain`, then the crate during
`remove_via_right` -/
def Demo.panicking : List (Fate × Call Nat Nat) :=
  [(⟨99, none⟩, .plain (.insert 1 10)), (⟨4, none⟩, .plain (.swapLeft 1 5)),
    (⟨99, none⟩, .retain Unit (fun _ _ _ => (none, ())) ()), (⟨99, none⟩, .plain (.removeViaRight 10)),
    (⟨99, none⟩, .plain (.insert 6 60))]

omit [RawImpl] [LawfulRaw] in
/-- a history of which a map as asked for is left -/
theorem ranU {α : Type} {e : Option α} {p : α → Bool} (h : e.any p = true) : ∃ x, e = some x ∧ p x = true := by
  cases e with
  | none => cases h
  | some x => exact ⟨x, rfl, h⟩

omit [RawImpl] [LawfulRaw] in
theorem Demo.panicking_lawful : LawfulCalls panicking := by
  intro f cl cr h; simp [panicking] at h

open Demo in
/-- the hypotheses of C105 are met by a map that is broken indeed: two left items, one right item, `1` without a partner -/
example : letI := tidyRaw
    ∃ m, (withCapacityAndHasher 0 idHash).runU panicking = some m ∧ LawfulCalls panicking ∧
      m.iterLeft.length = 2 ∧ m.iterRight.length = 1 ∧ m.getRight 1 = none := by
  let _ := tidyRaw
  obtain ⟨m, e, h⟩ := ranU (e := (withCapacityAndHasher 0 idHash).runU panicking)
    (p := fun m => m.iterLeft.length == 2 && (m.iterRight.length == 1 && m.getRight 1 == none)) (by decide +kernel)
  exact ⟨m, e, panicking_lawful, by simpa using h⟩

open Demo in
/-- all three kinds of outcomes of C105_agrees occur: returning, a panic of the crate, a panic of the items' code -/
example : letI := tidyRaw
    ∃ m, (withCapacityAndHasher 0 idHash).runU (panicking.take 3) = some m ∧
      (match execU (.removeViaRight 10) ⟨99, none⟩ m with | .panic (some .unwrapNone) _ => true | _ => false) = true ∧
      (match execU (.removeViaRight 10) ⟨1, none⟩ m with | .panic none _ => true | _ => false) = true ∧
      (match execU (.removeViaRight 20) ⟨99, none⟩ m with | .done _ _ _ => true | _ => false) = true := by
  let _ := tidyRaw
  obtain ⟨m, e, h⟩ := ranU (e := (withCapacityAndHasher 0 idHash).runU (panicking.take 3))
    (p := fun m => (match execU (.removeViaRight 10) ⟨99, none⟩ m with | .panic (some .unwrapNone) _ => true | _ => false) &&
      ((match execU (.removeViaRight 10) ⟨1, none⟩ m with | .panic none _ => true | _ => false) &&
      (match execU (.removeViaRight 20) ⟨99, none⟩ m with | .done _ _ _ => true | _ => false))) (by decide +kernel)
  refine ⟨m, e, ?_⟩
  rw [Bool.and_eq_true, Bool.and_eq_true] at h
  exact h

/-- a closure that rejects the first pair it sees, accepts the second and panics on the third: both calls are ended by that
panic; `retain` leaves the map, `drain_filter` has removed the second pair -/
example : letI := tidyRaw
    let g : Nat → Nat → Nat → Option Bool × Nat := fun s _ _ => (if s == 2 then none else some (s == 1), s + 1)
    ∃ m, (withCapacityAndHasher 0 idHash).runU [(⟨99, none⟩, .plain (.extend [(1, 10), (2, 20), (3, 30)]))] = some m ∧
      (match callU (.retain Nat g 0) ⟨99, none⟩ m, m.retainP g 0 with
        | .panic none m', .ok (.panicked, 3, m'') => m'.len == 3 && m''.len == 3 | _, _ => false) = true ∧
      (match callU (.drainFilter Nat g 0 5) ⟨0, none⟩ m, m.drainFilterP g 0 5 with
        | .panic none m', .ok (.panicked, [_], 3, m'') => m'.len == 2 && m''.len == 2 | _, _ => false) = true := by
  let _ := tidyRaw
  intro g
  obtain ⟨m, e, h⟩ := ranU
    (e := (withCapacityAndHasher 0 idHash).runU [(⟨99, none⟩, .plain (.extend [(1, 10), (2, 20), (3, 30)]))])
    (p := fun m => (match callU (.retain Nat g 0) ⟨99, none⟩ m, m.retainP g 0 with
        | .panic none m', .ok (.panicked, 3, m'') => m'.len == 3 && m''.len == 3 | _, _ => false) &&
      (match callU (.drainFilter Nat g 0 5) ⟨0, none⟩ m, m.drainFilterP g 0 5 with
        | .panic none m', .ok (.panicked, [_], 3, m'') => m'.len == 2 && m''.len == 2 | _, _ => false)) (by decide +kernel)
  rw [Bool.and_eq_true] at h
  exact ⟨m, e, h⟩

/-! ### C106 -/

/-- a map that shows the pairs `c` and goes on working like them -/
def Works (m : CycleMap L R) (c : List (L × R)) : Prop :=
  Shows m c ∧ ∀ ops, SafeRun c ops → ∃ os m' c', m.run ops = .ok (os, m') ∧ Steps c ops os c' ∧ Shows m' c'

theorem Repr.works {c : List (L × R)} (h : Repr m c) : Works m c := by
  refine ⟨h.shows, fun ops hs => ?_⟩
  obtain ⟨os, m', c', e, s, h'⟩ := run_simulates h hs
  exact ⟨os, m', c', e, s, h'.shows⟩

omit [RawImpl] [LawfulRaw] in
/-- C106 in full: a call on a map that is interrupted by a panic of `Hash` or `Eq` leaves a one-to-one map that
works, with the pairs it had except those the call was to remove (`Leaves`).  False, see `C106_false`. -/
def C106_full : Prop :=
  ∀ [RawImpl] [LawfulRaw] [LawfulCap] (L R : Type) [BEq L] [BEq R] [EquivBEq L] [EquivBEq R] (m m' : CycleMap L R)
    (c : List (L × R)) (op : Op L R) (f : Fate), Reachable m → Shows m c → execU op f m = .panic none m' →
    ∃ d, Leaves c op d ∧ Works m' d

/-- C106, what holds: an interrupted call leaves a map that works, and it holds the old pairs except those the call had
already removed (`Leaves`: lookups, removals, iteration, `retain`, `shrink_to` leave all pairs; `insert` and `swap_…` may
have removed the old pair of the item to be put in).  Missing (`Smooth`): `insert` and `extend` that make a table grow,
`swap_…` of an item that is there, `reserve` that moves the elements within a table. -/
theorem C106_partial [LawfulCap] {c : List (L × R)} (hm : Reachable m) (hc : Shows m c) (op : Op L R) (f : Fate)
    (hs : Smooth m f.survive op) (e : execU op f m = .panic none m') : ∃ d, Leaves c op d ∧ Works m' d := by
  have h := execU_leaves (hm.repr_of_shows hc) op f.survive hs f rfl
  rw [e] at h
  obtain ⟨d, h1, h2⟩ := h rfl
  exact ⟨d, h1, h2.works⟩

/-- C106, what holds for `retain`: if the closure (or `Hash` or `Eq`) panics, nothing has been removed. -/
theorem C106_retain_partial {σ : Type} (m m' : CycleMap L R) (g : σ → L → R → Option Bool × σ) (s : σ) (f : Fate)
    (e : callU (.retain σ g s) f m = .panic none m') : m' = m := by
  have h := (retainU_same g s : Same (retainU g s) m).bind (g := fun _ => (pure .unit : Unw _ (Out L R)))
    (J' := fun _ _ => True) (fun _ _ _ => .pure trivial) f trivial
  rw [show (retainU g s >>= fun _ => pure Out.unit) f m = .panic none m' from e] at h
  exact h rfl

open Demo in
/-- `insert(1, 50)` on a map with the pairs of `demo` and room, where the hash of `50` panics: `(1, 10)` is gone, the
others are there -/
example : letI := swissRaw 4
    ∃ os m, (withCapacityAndHasher 9 spreadHash).run [.extend [(1, 10), (2, 20), (3, 30)]] = .ok (os, m) ∧
      Smooth m none (.insert 1 50) ∧
      (match execU (.insert 1 50) ⟨2, none⟩ m with
        | .panic none m' => m'.getRight 2 == some 20 && (m'.getLeft 10).isNone && m'.len == 2
        | _ => false) = true := by
  let _ := swissRaw 4
  obtain ⟨x, e, h⟩ := ran (e := (withCapacityAndHasher 9 spreadHash).run [.extend [(1, 10), (2, 20), (3, 30)]])
    (p := fun x => decide (1 ≤ RawImpl.growthLeft x.2.left ∧ 1 ≤ RawImpl.growthLeft x.2.right) &&
      (match execU (.insert 1 50) ⟨2, none⟩ x.2 with
        | .panic none m' => m'.getRight 2 == some 20 && (m'.getLeft 10).isNone && m'.len == 2
        | _ => false)) (by decide +kernel)
  rw [Bool.and_eq_true, decide_eq_true_eq] at h
  exact ⟨_, _, e, h⟩

/-- three pairs, as many as a table of four buckets holds -/
def Demo.three : List (Fate × Call Nat Nat) :=
  [(⟨99, none⟩, .plain (.insert 1 10)), (⟨99, none⟩, .plain (.insert 2 20)), (⟨99, none⟩, .plain (.insert 3 30))]

/-- interrupted by the items' code, leaving a map as asked for -/
def _root_.Verif.Halt.leaves {M α : Type} (p : M → Bool) : Halt M α → Bool
  | .panic none m => p m
  | _ => false

omit [RawImpl] [LawfulRaw] in
theorem _root_.Verif.Halt.of_leaves {M α : Type} {x : Halt M α} {p : M → Bool} (h : x.leaves p = true) :
    ∃ m, x = .panic none m ∧ p m = true := by
  unfold Halt.leaves at h
  split at h
  · exact ⟨_, rfl, h⟩
  · cases h

omit [RawImpl] [LawfulRaw] in
/-- the witness: `Eq` panics in the last probe of `swap_left(&1, 2)`.  The right item already has the hash of `2`, the
left table still holds `1`.  Both items are there, `10` has the partner `1`, `1` has none, `iter()` and `remove_via_left(&1)` panic. -/
theorem C106_witness : letI := swissRaw 4
    ∃ m m', (withCapacityAndHasher 0 idHash).runU [(⟨99, none⟩, .plain (.insert 1 10))] = some m ∧
      m.iterList.toOption = some [(1, 10)] ∧ execU (.swapLeft 1 2) ⟨4, none⟩ m = .panic none m' ∧
      m'.containsLeft 1 = true ∧ m'.containsRight 10 = true ∧ m'.getRight 1 = none ∧ m'.getLeft 10 = some 1 ∧
      m'.iterList.toOption = none ∧ (m'.removeViaLeft 1).toOption.isSome = false := by
  let _ := swissRaw 4
  obtain ⟨m, e, h⟩ := ranU (e := (withCapacityAndHasher 0 idHash).runU [(⟨99, none⟩, .plain (.insert 1 10))])
    (p := fun m => decide (m.iterList.toOption = some [(1, 10)]) &&
      (execU (.swapLeft 1 2) ⟨4, none⟩ m).leaves fun m' : CycleMap Nat Nat =>
        decide (m'.containsLeft 1 = true ∧ m'.containsRight 10 = true ∧ m'.getRight 1 = none ∧
          m'.getLeft 10 = some 1 ∧ m'.iterList.toOption = none ∧ (m'.removeViaLeft 1).toOption.isSome = false))
    (by decide +kernel)
  rw [Bool.and_eq_true, decide_eq_true_eq] at h
  obtain ⟨m', e', h'⟩ := Halt.of_leaves h.2
  exact ⟨m, m', e, h.1, e', of_decide_eq_true h'⟩

omit [RawImpl] [LawfulRaw] in
/-- the second witness: `Hash` panics while the right table grows during `insert(4, 40)`; `4` is there without a
partner, and `iter()` panics. -/
theorem C106_witness_insert : letI := swissRaw 4
    ∃ m m', (withCapacityAndHasher 0 idHash).runU Demo.three = some m ∧
      execU (.insert 4 40) ⟨10, none⟩ m = .panic none m' ∧
      m'.containsLeft 4 = true ∧ m'.getRight 4 = none ∧ m'.containsRight 40 = false ∧ m'.iterList.toOption = none := by
  let _ := swissRaw 4
  obtain ⟨m, e, h⟩ := ranU (e := (withCapacityAndHasher 0 idHash).runU Demo.three)
    (p := fun m => (execU (.insert 4 40) ⟨10, none⟩ m).leaves fun m' : CycleMap Nat Nat =>
      decide (m'.containsLeft 4 = true ∧ m'.getRight 4 = none ∧ m'.containsRight 40 = false ∧ m'.iterList.toOption = none))
    (by decide +kernel)
  obtain ⟨m', e', h'⟩ := Halt.of_leaves h
  exact ⟨m, m', e, e', of_decide_eq_true h'⟩

omit [RawImpl] [LawfulRaw] in
theorem C106_false : ¬ C106_full := by
  intro h
  let _ := swissRaw 4; have := swissRaw_lawful 4; have := swissRaw_cap 4
  obtain ⟨x, e, hx⟩ := ran (e := (withCapacityAndHasher 0 idHash).exec (.insert 1 10))
    (p := fun x => match execU (.swapLeft 1 2) ⟨4, none⟩ x.2 with
      | .panic none m' => (m'.iterList.toOption).isNone
      | _ => false) (by decide +kernel)
  have hr : Reachable x.2 := .step (.withCapacity 0 idHash) (by simp) (by simp) e
  split at hx
  · rename_i m' e'
    obtain ⟨c, hc⟩ := hr.repr
    obtain ⟨d, _, hd, _⟩ := h Nat Nat _ m' c _ _ hr hc.shows e'
    obtain ⟨ps, e2, _⟩ := hd.iter
    rw [e2] at hx
    cases hx
  · cases hx

/-! ### C107 -/

/-- C107: the only panic of the crate itself on a reachable map is the `unreachable!` of `swap_right_or_insert`
(see `C21_panics`), and it leaves a map that works: the pair has been inserted. -/
theorem C107_own_panic {c : List (L × R)} (hm : Reachable m) (hc : Shows m c) (op : Op L R) (f : Fate) (p : Panic)
    (e : execU op f m = .panic (some p) m') :
    p = .unreachable ∧ ∃ old new l, op = .swapRightOrInsert old new l ∧ Works m' (CycleSpec.insert c l new).2 := by
  have h := hm.repr_of_shows hc
  have e1 := (C105_agrees m op).2.1 f p m' e
  have key : ∃ old new l, op = .swapRightOrInsert old new l := by
    have hs : ¬ Safe c op := by
      intro hs
      obtain ⟨o, m1, c', e2, -⟩ := exec_simulates h hs
      rw [e2] at e1; cases e1
    cases op
    case swapRightOrInsert a b l => exact ⟨a, b, l, rfl⟩
    case drain n =>
      obtain ⟨d, m1, -, e2, -⟩ := drainTake_refines h n
      simp only [exec, e2, bind, Except.bind, pure, Except.pure] at e1
      cases e1
    case clone => simp only [exec] at e1; cases e1
    all_goals exact absurd trivial hs
  obtain ⟨old, new, l, rfl⟩ := key
  have hs : ¬ ((findR c old).isSome ∨ findL c l = none) := by
    intro hs
    obtain ⟨o, m1, c', e2, -⟩ := exec_simulates h (op := .swapRightOrInsert old new l) hs
    rw [e2] at e1; cases e1
  have e2 := swapRightOrInsert_panics h old new l hs
  simp only [exec, e2, bind, Except.bind] at e1
  cases e1
  refine ⟨rfl, old, new, l, rfl, ?_⟩
  have h1 : Unw.Ends (execU (.swapRightOrInsert old new l)) m (fun _ _ => True)
      (fun w m' => w = some .unreachable → Repr m' (CycleSpec.insert c l new).2) := by
    refine Unw.Ends.bind (K := fun _ _ => True) (.user_bind (by simp) <| .user_bind (by simp) <| .get_bind ?_) fun _ _ _ => .pure trivial
    have ho : (m.right.get (m.hb.hr old) (equivalentKey old)).isSome = false := by
      rw [findR_isSome h]; simpa using fun h => hs (.inl h)
    rw [if_neg (by rw [ho]; simp)]
    refine Unw.Ends.bind (K := fun o m' => m.insert l new = .ok (o, m')) ?_ ?_
    · refine ((insertU_follows l new).ends (J := fun _ _ => True) ?_).mono (fun _ _ h => h.1) fun _ _ h => h
      refine Unw.Ends.bind (K := fun _ _ => True) ?_ fun _ _ _ => Unw.Ends.bind (K := fun _ _ => True) ?_ fun _ _ _ =>
        .user_bind (by simp) <| .user_bind (by simp) <| .get_bind <| RawTable.ends_grow_bind (fun _ _ _ => by simp) <|
        .get_bind <| RawTable.ends_grow_bind (fun _ _ _ => by simp) <| .pure trivial
      · refine .user_bind (by simp) <| .user_bind (by simp) <| .get_bind ?_
        simp only
        split
        · exact .pure trivial
        · refine .set_bind ?_
          split
          · exact .fail (by simp)
          · exact .set_bind (.pure trivial)
      · refine .user_bind (by simp) <| .user_bind (by simp) <| .get_bind ?_
        simp only
        split
        · exact .pure trivial
        · refine .set_bind ?_
          split
          · exact .fail (by simp)
          · exact .set_bind (.pure trivial)
    · intro o m1 e3
      obtain ⟨m2, e4, h4, -⟩ := insert_refines h l new
      rw [e4] at e3; cases e3
      generalize (CycleSpec.insert c l new).1 = o
      cases o
      · exact .pure trivial
      · exact .fail fun _ => h4
      · exact .pure trivial
      · exact .fail fun _ => h4
  have h2 := h1 f trivial
  rw [e] at h2
  exact (h2 rfl).works

open Demo in
/-- `swap_right_or_insert(&50, 60, 1)` on `demo` panics that way -/
example : letI := swissRaw 4
    ∃ os m, (withCapacityAndHasher 0 spreadHash).run [.extend [(1, 10), (2, 20), (3, 30)]] = .ok (os, m) ∧
      (match execU (.swapRightOrInsert 50 60 1) ⟨99, none⟩ m with
        | .panic (some .unreachable) m' => m'.getRight 1 == some 60 && m'.len == 3
        | _ => false) = true := by
  let _ := swissRaw 4
  obtain ⟨x, e, h⟩ := ran (e := (withCapacityAndHasher 0 spreadHash).run [.extend [(1, 10), (2, 20), (3, 30)]])
    (p := fun x => match execU (.swapRightOrInsert 50 60 1) ⟨99, none⟩ x.2 with
        | .panic (some .unreachable) m' => m'.getRight 1 == some 60 && m'.len == 3
        | _ => false) (by decide +kernel)
  exact ⟨_, _, e, h⟩

end Verif.CycleMap
