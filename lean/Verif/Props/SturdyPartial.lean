import Verif.PartialMap.SturdyValid
import Verif.Props.UnwindPartial
/-! Property C154: a repair of `PartialCycleMap` that survives panics of `Hash` and `Eq` (see `Verif.PartialMap.Sturdy`). -/
set_option linter.unusedSectionVars false
namespace Verif.PartialMap
open PartialSpec OptionalPair
open CycleMap (ranU)
variable [RawImpl] [LawfulRaw] {L R : Type} [BEq L] [BEq R] [EquivBEq L] [EquivBEq R]
variable {m m' : PartialMap L R} {c : List (OptionalPair L R)}

/-- C154: a call of the repaired map that is not interrupted returns, changes and panics as the call of the map of C148 does, and no
call is interrupted if the items' own code does not panic. -/
theorem C154_agrees (m : PartialMap L R) (op : Op L R) :
    (∀ f o f' m', Sturdy.execU op f m = .done o f' m' → Repair.exec m op = .ok (o, m')) ∧
    (∀ f p m', Sturdy.execU op f m = .panic (some p) m' → Repair.exec m op = .error p) ∧
    (∃ k, ∀ f, k ≤ f.fuse → ∀ m', Sturdy.execU op f m ≠ .panic none m') := by
  have h := Sturdy.execU_follows (m := m) op
  refine ⟨fun f o f' m' e => ?_, fun f p m' e => ?_, ?_⟩
  · have := h.agrees f; rw [e] at this; exact this
  · have := h.agrees f; rw [e] at this; exact this
  · obtain ⟨k, hk⟩ := h.calm
    refine ⟨k, fun f hf m' e => ?_⟩
    have := (hk f hf).1
    rw [e] at this; cases this

/-- The maps that histories of repaired calls produce in which `Hash`, `Eq` and closures (not that of
`drain_filter`) may panic, every panic is caught and the map used further; `Clone`s that return give equal items. -/
inductive Lived : PartialMap L R → Prop
  | new (n : Nat) (hb : BuildHasher L R) : Lived (withCapacityAndHasher n hb)
  | returned {m m' : PartialMap L R} {call : Sturdy.Call L R} {f f' : Fate} {o : Out L R} : Lived m →
      (∀ cl cr, call = .plain (.clone cl cr) → (∀ x, (cl x == x) = true) ∧ (∀ x, (cr x == x) = true)) →
      Sturdy.callU call f m = .done o f' m' → Lived m'
  | panicked {m m' : PartialMap L R} {call : Sturdy.Call L R} {f : Fate} {why : Option Panic} : Lived m →
      Sturdy.callU call f m = .panic why m' → Lived m'

/-- the contents `d` a call with a panicking closure, or another, may leave when it panics -/
def LeavesCall (c : List (OptionalPair L R)) : Sturdy.Call L R → List (OptionalPair L R) → Prop
  | .plain op, d => Sturdy.Leaves c op d
  | .retain _ f s, d => Sturdy.LeavesRetain c f s d
  | _, d => d = c

/-- a repaired call that is interrupted, or whose closure panics, leaves a valid map -/
theorem Repr.interrupted (h : Repr m c) (call : Sturdy.Call L R) (f : Fate) (e : Sturdy.callU call f m = .panic none m') :
    ∃ d, LeavesCall c call d ∧ Repr m' d := by
  cases call with
  | plain op =>
    have h1 := Sturdy.execU_leaves (S := fun _ => True) h op f trivial
    rw [show Sturdy.execU op f m = _ from e] at h1
    exact h1 rfl
  | retain σ g s =>
    have h1 := ((Sturdy.retainU_leaves (S := fun _ => True) h g s).bind (g := fun _ => pure (Out.unit (L := L) (R := R)))
      fun _ _ _ => .pure (J := fun _ _ => True) trivial) f trivial
    rw [show (Sturdy.retainU g s >>= fun _ => pure Out.unit) f m = .panic none m' from e] at h1
    exact h1 rfl
  | retainPaired σ g s =>
    have h0 : Same (Sturdy.retainPairedU g s) m := retainPairedU_same (Sturdy.neg₂ g) s
    have h1 := (h0.bind (g := fun _ => pure (Out.unit (L := L) (R := R))) fun _ _ _ => .pure (J := fun _ _ => True) trivial) f trivial
    rw [show (Sturdy.retainPairedU g s >>= fun _ => pure Out.unit) f m = .panic none m' from e] at h1
    exact ⟨c, rfl, by rw [h1 rfl]; exact h⟩
  | retainUnpaired σ g s =>
    have h0 : Same (Sturdy.retainUnpairedU g s) m := retainUnpairedU_same (Sturdy.neg g) s
    have h1 := (h0.bind (g := fun _ => pure (Out.unit (L := L) (R := R))) fun _ _ _ => .pure (J := fun _ _ => True) trivial) f trivial
    rw [show (Sturdy.retainUnpairedU g s >>= fun _ => pure Out.unit) f m = .panic none m' from e] at h1
    exact ⟨c, rfl, by rw [h1 rfl]; exact h⟩

/-- a repaired call that is not interrupted returns, and as documented -/
theorem Repr.returns (h : Repr m c) (call : Sturdy.Call L R) (f : Fate) (hi : (Sturdy.callU call f m).interrupted = false) :
    ∃ o f' m', Sturdy.callU call f m = .done o f' m' ∧
      ((∀ cl cr, call = .plain (.clone cl cr) → (∀ x, (cl x == x) = true) ∧ (∀ x, (cr x == x) = true)) → ∃ c', Repr m' c') := by
  rcases Sturdy.callU_calm (m := m) call f with ⟨m', e⟩ | ⟨op, hop, e⟩
  · rw [e] at hi; cases hi
  · rw [e] at hi ⊢
    have hok : ∃ o m', Repair.exec m op = .ok (o, m') ∧ (op.LawfulClone → ∃ c', Repr m' c') := by
      by_cases hl : op.LawfulClone
      · obtain ⟨o, m', c', e', -, h'⟩ := Repair.exec_simulates h hl
        exact ⟨o, m', e', fun _ => ⟨c', h'⟩⟩
      · cases op
        case clone => exact ⟨_, _, rfl, fun h => absurd h hl⟩
        all_goals exact absurd trivial hl
    obtain ⟨o, m', e', h'⟩ := hok
    have ha := (Sturdy.execU_follows (m := m) op).agrees f
    cases e2 : Sturdy.execU op f m with
    | done o2 f2 m2 =>
      rw [e2] at ha
      rw [e'] at ha; cases ha
      refine ⟨o, f2, m', rfl, fun hc => h' ?_⟩
      cases op
      case clone cl cr => exact hc cl cr ((hop cl cr).2 rfl)
      all_goals exact trivial
    | panic why m2 =>
      rw [e2] at ha hi
      cases why with
      | none => cases hi
      | some p => rw [e'] at ha; cases ha
    | abort =>
      rw [e2] at ha
      obtain ⟨p, ha⟩ := ha
      rw [e'] at ha; cases ha

theorem Lived.repr (h : Lived m) : ∃ c, Repr m c := by
  induction h with
  | new n hb => exact ⟨_, withCapacity_repr n hb⟩
  | @returned m m' call f f' o _ hcl e ih =>
    obtain ⟨c, h⟩ := ih
    obtain ⟨o1, f1, m1, e1, h1⟩ := h.returns call f (by rw [e]; rfl)
    rw [e] at e1; cases e1
    exact h1 hcl
  | @panicked m m' call f why _ e ih =>
    obtain ⟨c, h⟩ := ih
    cases why with
    | none => obtain ⟨d, -, h1⟩ := h.interrupted call f e; exact ⟨d, h1⟩
    | some p =>
      obtain ⟨o1, f1, m1, e1, -⟩ := h.returns call f (by rw [e]; rfl)
      rw [e] at e1; cases e1

/-- the contents of such a map are what it shows -/
theorem Lived.repr_of_shows (h : Lived m) (hs : Shows m c) : Repr m c := by
  obtain ⟨d, hd⟩ := h.repr
  obtain ⟨ps, e, hp⟩ := hs.iterPaired
  obtain ⟨qs, e', hq⟩ := iterPairedList_refines hd
  rw [e] at e'; cases e'
  have h1 : (d.filterMap pairOf).Perm (c.filterMap pairOf) := hq.symm.trans hp
  have h2 : (d.filter fun e => !isPair e).Perm (c.filter fun e => !isPair e) :=
    (iterUnpairedList_refines hd).symm.trans hs.iterUnpaired
  exact hd.perm ((pairs_lones_perm d).symm.trans (((h1.map _).append h2).trans (pairs_lones_perm c)))

/-- a map that shows the contents `c` and goes on working as documented, whatever is called -/
def Serves (m : PartialMap L R) (c : List (OptionalPair L R)) : Prop :=
  Shows m c ∧ ∀ ops : List (Op L R), (∀ op ∈ ops, op.LawfulClone) →
    ∃ os m' c', Repair.run m ops = .ok (os, m') ∧ Repair.Steps c ops os c' ∧ Shows m' c'

theorem Repr.serves (h : Repr m c) : Serves m c := by
  refine ⟨h.shows, fun ops hs => ?_⟩
  obtain ⟨os, m', c', e, s, h'⟩ := Repair.run_simulates h hs
  exact ⟨os, m', c', e, s, h'.shows⟩

/-- C154: whatever has panicked, and however often, the repaired map is a one-to-one map that does what is documented. -/
theorem C154_serves (h : Lived m) : ∃ c, Serves m c := by
  obtain ⟨c, hc⟩ := h.repr
  exact ⟨c, hc.serves⟩

/-- C154: a repaired call interrupted by a panic of `Hash`, `Eq` or a closure leaves a map that does what is documented, and it holds
what it held, except entries that the call had removed (`LeavesCall`). -/
theorem C154_interrupted (hm : Lived m) (hc : Shows m c) (call : Sturdy.Call L R) (f : Fate)
    (e : Sturdy.callU call f m = .panic none m') : ∃ d, LeavesCall c call d ∧ Serves m' d := by
  obtain ⟨d, h1, h2⟩ := (hm.repr_of_shows hc).interrupted call f e
  exact ⟨d, h1, h2.serves⟩

/-- C154: the crate itself never panics on such a map. -/
theorem C154_no_panic (hm : Lived m) (call : Sturdy.Call L R) (f : Fate) :
    (∀ p m', Sturdy.callU call f m ≠ .panic (some p) m') ∧ Sturdy.callU call f m ≠ .abort := by
  obtain ⟨c, h⟩ := hm.repr
  refine ⟨fun p m' e => ?_, fun e => ?_⟩ <;>
  · obtain ⟨o1, f1, m1, e1, -⟩ := h.returns call f (by rw [e]; rfl)
    rw [e] at e1; cases e1

/-- A history of repaired calls in which every panic is caught and the map used further; `none` if the process is aborted. -/
def Sturdy.runU (m : PartialMap L R) : List (Fate × Sturdy.Call L R) → Option (PartialMap L R)
  | [] => some m
  | (f, call) :: rest =>
    match Sturdy.callU call f m with
    | .done _ _ m' => Sturdy.runU m' rest
    | .panic _ m' => Sturdy.runU m' rest
    | .abort => none

/-- C154: such a history always goes through, and ends in a map that does what is documented. -/
theorem C154_history (hm : Lived m) (calls : List (Fate × Sturdy.Call L R))
    (hcl : ∀ x ∈ calls, ∀ cl cr, x.2 = .plain (.clone cl cr) → (∀ x, (cl x == x) = true) ∧ (∀ x, (cr x == x) = true)) :
    ∃ m' c, Sturdy.runU m calls = some m' ∧ Lived m' ∧ Serves m' c := by
  induction calls generalizing m with
  | nil =>
    obtain ⟨c, hc⟩ := C154_serves hm
    exact ⟨m, c, rfl, hm, hc⟩
  | cons x xs ih =>
    obtain ⟨f, call⟩ := x
    have hcl' : ∀ x ∈ xs, _ := fun x hx => hcl x (List.mem_cons_of_mem _ hx)
    simp only [Sturdy.runU]
    cases e : Sturdy.callU call f m with
    | done o f' m1 => exact ih (.returned hm (hcl (f, call) List.mem_cons_self) e) hcl'
    | panic why m1 => exact ih (.panicked hm e) hcl'
    | abort => exact absurd e (C154_no_panic hm call f).2

/-- a closure that rejects pairs and panics when it is asked about a lone item -/
def Sturdy.Demo.picky (_ : Unit) (o : OptionalPair Nat Nat) : Option Bool × Unit := (if isPair o then some false else none, ())

omit [RawImpl] [LawfulRaw] in
/-- the witnesses against the crate's own calls (`C111_witness…`, `swap_left_or_insert` of C112), repaired, one after the other:
`swap_left(&1, 2)` interrupted after it has removed `2` with its partner, `insert(4, 40)` interrupted and done (the tables grow),
`swap_left_or_insert(&5, 1, 60)`, which replaces `(1, 10)`; then `retain` with a closure that panics when it is asked about the lone `7`, and
has removed the pairs before -/
example : letI := swissRaw 4
    ∃ m m', Sturdy.runU (withCapacityAndHasher 0 spreadHash)
        [(⟨99, none⟩, .plain (.insert 1 10)), (⟨99, none⟩, .plain (.insert 2 20)), (⟨99, none⟩, .plain (.insert 3 30)),
          (⟨7, none⟩, .plain (.swapLeft 1 2)), (⟨5, none⟩, .plain (.insert 4 40)), (⟨99, none⟩, .plain (.insert 4 40)),
          (⟨99, none⟩, .plain (.swapLeftOrInsert 5 1 60)), (⟨99, none⟩, .plain (.insertLeft 7))] = some m ∧ Lived m ∧
      m.getRight 1 = some 60 ∧ m.containsLeft 2 = false ∧ m.getRight 3 = some 30 ∧ m.getRight 4 = some 40 ∧ m.lenLeft = 4 ∧ m.lenRight = 3 ∧
      Sturdy.callU (.retain Unit Sturdy.Demo.picky ()) ⟨99, none⟩ m = .panic none m' ∧ m'.lenLeft = 1 ∧ m'.lenRight = 0 ∧
      m'.containsLeft 7 = true := by
  let _ := swissRaw 4; have := swissRaw_lawful 4
  let calls : List (Fate × Sturdy.Call Nat Nat) :=
    [(⟨99, none⟩, .plain (.insert 1 10)), (⟨99, none⟩, .plain (.insert 2 20)), (⟨99, none⟩, .plain (.insert 3 30)),
      (⟨7, none⟩, .plain (.swapLeft 1 2)), (⟨5, none⟩, .plain (.insert 4 40)), (⟨99, none⟩, .plain (.insert 4 40)),
      (⟨99, none⟩, .plain (.swapLeftOrInsert 5 1 60)), (⟨99, none⟩, .plain (.insertLeft 7))]
  obtain ⟨m, e, h⟩ := ranU (e := Sturdy.runU (withCapacityAndHasher 0 spreadHash) calls)
    (p := fun m => decide (m.getRight 1 = some 60 ∧ m.containsLeft 2 = false ∧ m.getRight 3 = some 30 ∧ m.getRight 4 = some 40 ∧
        m.lenLeft = 4 ∧ m.lenRight = 3) &&
      (Sturdy.callU (.retain Unit Sturdy.Demo.picky ()) ⟨99, none⟩ m).leaves fun m' : PartialMap Nat Nat =>
        decide (m'.lenLeft = 1 ∧ m'.lenRight = 0 ∧ m'.containsLeft 7 = true)) (by decide +kernel)
  rw [Bool.and_eq_true, decide_eq_true_eq] at h
  obtain ⟨m', e', h'⟩ := Halt.of_leaves h.2
  obtain ⟨m1, c, e1, hl, -⟩ := C154_history (.new 0 spreadHash) calls (by simp [calls])
  rw [e] at e1; cases e1
  exact ⟨m, m', e, hl, h.1.1, h.1.2.1, h.1.2.2.1, h.1.2.2.2.1, h.1.2.2.2.2.1, h.1.2.2.2.2.2, e', of_decide_eq_true h'⟩

end Verif.PartialMap
