import Verif.GroupMap.SturdyValid
import Verif.Props.UnwindGroup
/-! Property C153: a repair of `GroupMap` that survives panics of `Hash` and `Eq` (see `Verif.GroupMap.Sturdy`). -/
set_option linter.unusedSectionVars false
namespace Verif.GroupMap
open GroupSpec
open CycleMap (ranU)
variable [RawImpl] [LawfulRaw] {L R : Type} [BEq L] [BEq R] [EquivBEq L] [EquivBEq R]
variable {m m' : GroupMap L R} {c : Contents L R}

/-- C153: a call of the repaired map that is not interrupted returns, changes and panics as the call of the map of C148 does, and no
call is interrupted if the items' own code does not panic. -/
theorem C153_agrees (m : GroupMap L R) (op : Op L R) :
    (∀ f o f' m', Sturdy.execU op f m = .done o f' m' → Repair.exec m op = .ok (o, m')) ∧
    (∀ f p m', Sturdy.execU op f m = .panic (some p) m' → Repair.exec m op = .error p) ∧
    (∃ k, ∀ f, k ≤ f.fuse → ∀ m', Sturdy.execU op f m ≠ .panic none m') := by
  have h := Sturdy.execU_follows (m := m) op
  refine ⟨fun f o f' m' e => ?_, fun f p m' e => ?_, ?_⟩
  · have := h.agrees f; rw [e] at this; exact this
  · have := h.agrees f; rw [e] at this; exact this
  · obtain ⟨k, hk⟩ := h.calm
    refine ⟨k, fun f hf m' e => ?_⟩
    have := (hk f hf).1
    rw [e] at this; cases this

/-- The maps that histories of repaired calls produce in which `Hash`, `Eq` and closures may panic, every panic is caught and the
map used further; `Clone`s that return give equal items. -/
inductive Lived : GroupMap L R → Prop
  | new (n : Nat) (hb : BuildHasher L R) : Lived (withCapacityAndHasher n hb)
  | returned {m m' : GroupMap L R} {call : Call L R} {f f' : Fate} {o : Out L R} : Lived m →
      (∀ cl cr, call = .plain (.clone cl cr) → (∀ x, (cl x == x) = true) ∧ (∀ x, (cr x == x) = true)) →
      Sturdy.callU call f m = .done o f' m' → Lived m'
  | panicked {m m' : GroupMap L R} {call : Call L R} {f : Fate} {why : Option Panic} : Lived m →
      Sturdy.callU call f m = .panic why m' → Lived m'

/-- the contents `d` a call with a panicking closure, or another, may leave when it panics -/
def LeavesCall (c : Contents L R) : Call L R → Contents L R → Prop
  | .plain op, d => Sturdy.Leaves c op d
  | _, d => d = c

/-- a repaired call that is interrupted, or whose closure panics, leaves a valid map -/
theorem Repr.interrupted (h : Repr m c) (call : Call L R) (f : Fate) (e : Sturdy.callU call f m = .panic none m') :
    ∃ d, LeavesCall c call d ∧ Repr m' d := by
  cases call with
  | plain op =>
    have h1 := Sturdy.execU_leaves (S := fun _ => True) h op f trivial
    rw [show Sturdy.execU op f m = _ from e] at h1
    exact h1 rfl
  | retainPaired σ g s =>
    have h1 := (stops_void (b := Out.unit (L := L) (R := R)) (Sturdy.retainPairedU_same g s : Same (Sturdy.retainPairedU g s) m)) f trivial
    rw [show (Sturdy.retainPairedU g s >>= fun _ => pure Out.unit) f m = .panic none m' from e] at h1
    exact ⟨c, rfl, by rw [h1 rfl]; exact h⟩
  | retainUnpaired σ g s =>
    have h1 := (stops_void (b := Out.unit (L := L) (R := R))
      (retainUnpairedU_same (Sturdy.neg1 g) s : Same (Sturdy.retainUnpairedU g s) m)) f trivial
    rw [show (retainUnpairedU (Sturdy.neg1 g) s >>= fun _ => pure Out.unit) f m = .panic none m' from e] at h1
    exact ⟨c, rfl, by rw [h1 rfl]; exact h⟩

/-- a repaired call that is not interrupted returns, and as documented -/
theorem Repr.returns (h : Repr m c) (call : Call L R) (f : Fate) (hi : (Sturdy.callU call f m).interrupted = false) :
    ∃ o f' m', Sturdy.callU call f m = .done o f' m' ∧
      ((∀ cl cr, call = .plain (.clone cl cr) → (∀ x, (cl x == x) = true) ∧ (∀ x, (cr x == x) = true)) → ∃ c', Repr m' c') := by
  rcases Sturdy.callU_calm (m := m) call f with ⟨m', e⟩ | ⟨op, hop, e⟩
  · rw [e] at hi; cases hi
  · rw [e] at hi ⊢
    have hok : ∃ o m', Repair.exec m op = .ok (o, m') ∧ (op.LawfulClone → ∃ c', Repr m' c') := by
      by_cases hl : op.LawfulClone
      · obtain ⟨o, m', c', e', -, h'⟩ := Repair.exec_simulates h hl
        exact ⟨o, m', e', fun _ => ⟨c', h'⟩⟩
      · cases op
        case clone => exact ⟨_, _, rfl, fun h => absurd h hl⟩
        all_goals exact absurd trivial hl
    obtain ⟨o, m', e', h'⟩ := hok
    have ha := (Sturdy.execU_follows (m := m) op).agrees f
    cases e2 : Sturdy.execU op f m with
    | done o2 f2 m2 =>
      rw [e2] at ha
      rw [e'] at ha; cases ha
      refine ⟨o, f2, m', rfl, fun hc => h' ?_⟩
      cases op
      case clone cl cr => exact hc cl cr ((hop cl cr).2 rfl)
      all_goals exact trivial
    | panic why m2 =>
      rw [e2] at ha hi
      cases why with
      | none => cases hi
      | some p => rw [e'] at ha; cases ha
    | abort =>
      rw [e2] at ha
      obtain ⟨p, ha⟩ := ha
      rw [e'] at ha; cases ha

theorem Lived.repr (h : Lived m) : ∃ c, Repr m c := by
  induction h with
  | new n hb => exact ⟨_, withCapacity_repr n hb⟩
  | @returned m m' call f f' o _ hcl e ih =>
    obtain ⟨c, h⟩ := ih
    obtain ⟨o1, f1, m1, e1, h1⟩ := h.returns call f (by rw [e]; rfl)
    rw [e] at e1; cases e1
    exact h1 hcl
  | @panicked m m' call f why _ e ih =>
    obtain ⟨c, h⟩ := ih
    cases why with
    | none => obtain ⟨d, -, h1⟩ := h.interrupted call f e; exact ⟨d, h1⟩
    | some p =>
      obtain ⟨o1, f1, m1, e1, -⟩ := h.returns call f (by rw [e]; rfl)
      rw [e] at e1; cases e1

/-- the contents of such a map are what it shows -/
theorem Lived.repr_of_shows (h : Lived m) (hs : Shows m c) : Repr m c := by
  obtain ⟨d, hd⟩ := h.repr
  obtain ⟨ps, e, hp⟩ := hs.iterPaired
  obtain ⟨qs, e', hq⟩ := iterPairedList_refines hd
  rw [e] at e'; cases e'
  exact hd.same ⟨(iterRight_refines hd).symm.trans hs.iterRight, hq.symm.trans hp⟩

/-- a map that shows the contents `c` and goes on working as documented, whatever is called -/
def Serves (m : GroupMap L R) (c : Contents L R) : Prop :=
  Shows m c ∧ ∀ ops : List (Op L R), (∀ op ∈ ops, op.LawfulClone) →
    ∃ os m' c', Repair.run m ops = .ok (os, m') ∧ Repair.Steps c ops os c' ∧ Shows m' c'

theorem Repr.serves (h : Repr m c) : Serves m c := by
  refine ⟨h.shows, fun ops hs => ?_⟩
  obtain ⟨os, m', c', e, s, h'⟩ := Repair.run_simulates h hs
  exact ⟨os, m', c', e, s, h'.shows⟩

/-- C153: whatever has panicked, and however often, the repaired map is a many-to-one map that does what is documented. -/
theorem C153_serves (h : Lived m) : ∃ c, Serves m c := by
  obtain ⟨c, hc⟩ := h.repr
  exact ⟨c, hc.serves⟩

/-- C153: a repaired call interrupted by a panic of `Hash`, `Eq` or a closure leaves a map that does what is documented, and it holds
what it held, except what the call had completely removed (`LeavesCall`). -/
theorem C153_interrupted (hm : Lived m) (hc : Shows m c) (call : Call L R) (f : Fate)
    (e : Sturdy.callU call f m = .panic none m') : ∃ d, LeavesCall c call d ∧ Serves m' d := by
  obtain ⟨d, h1, h2⟩ := (hm.repr_of_shows hc).interrupted call f e
  exact ⟨d, h1, h2.serves⟩

/-- C153: the crate itself never panics on such a map. -/
theorem C153_no_panic (hm : Lived m) (call : Call L R) (f : Fate) :
    (∀ p m', Sturdy.callU call f m ≠ .panic (some p) m') ∧ Sturdy.callU call f m ≠ .abort := by
  obtain ⟨c, h⟩ := hm.repr
  refine ⟨fun p m' e => ?_, fun e => ?_⟩ <;>
  · obtain ⟨o1, f1, m1, e1, -⟩ := h.returns call f (by rw [e]; rfl)
    rw [e] at e1; cases e1

/-- A history of repaired calls in which every panic is caught and the map used further; `none` if the process is aborted. -/
def Sturdy.runU (m : GroupMap L R) : List (Fate × Call L R) → Option (GroupMap L R)
  | [] => some m
  | (f, call) :: rest =>
    match Sturdy.callU call f m with
    | .done _ _ m' => Sturdy.runU m' rest
    | .panic _ m' => Sturdy.runU m' rest
    | .abort => none

/-- C153: such a history always goes through, and ends in a map that does what is documented. -/
theorem C153_history (hm : Lived m) (calls : List (Fate × Call L R))
    (hcl : ∀ x ∈ calls, ∀ cl cr, x.2 = .plain (.clone cl cr) → (∀ x, (cl x == x) = true) ∧ (∀ x, (cr x == x) = true)) :
    ∃ m' c, Sturdy.runU m calls = some m' ∧ Lived m' ∧ Serves m' c := by
  induction calls generalizing m with
  | nil =>
    obtain ⟨c, hc⟩ := C153_serves hm
    exact ⟨m, c, rfl, hm, hc⟩
  | cons x xs ih =>
    obtain ⟨f, call⟩ := x
    have hcl' : ∀ x ∈ xs, _ := fun x hx => hcl x (List.mem_cons_of_mem _ hx)
    simp only [Sturdy.runU]
    cases e : Sturdy.callU call f m with
    | done o f' m1 => exact ih (.returned hm (hcl (f, call) List.mem_cons_self) e) hcl'
    | panic why m1 => exact ih (.panicked hm e) hcl'
    | abort => exact absurd e (C153_no_panic hm call f).2

omit [RawImpl] [LawfulRaw] in
/-- the witnesses against the crate's own calls (`C109_witness…`), repaired, one after the other: `pair(&1, &20)`, `insert_left(1, &20)`,
`swap_right(&10, 40)` and `insert(4, 40)` interrupted leave `10 ↦ {1, 2}`; then `remove_right(&10)`, interrupted when the first of its left
items is put into the set to be returned, has removed all -/
example : letI := swissRaw 4
    ∃ m m', Sturdy.runU (withCapacityAndHasher 0 spreadHash)
        [(⟨99, none⟩, .plain (.insert 1 10)), (⟨99, none⟩, .plain (.insert 2 10)), (⟨99, none⟩, .plain (.insertRight 20)),
          (⟨3, none⟩, .plain (.pair 1 20)), (⟨3, none⟩, .plain (.insertLeft 1 20)), (⟨7, none⟩, .plain (.swapRight 10 40)),
          (⟨7, none⟩, .plain (.insert 4 40))] = some m ∧ Lived m ∧
      m.getRight 1 = some 10 ∧ m.getRight 2 = some 10 ∧ m.isRightPaired 20 = false ∧ m.lenLeft = 2 ∧ m.lenRight = 2 ∧
      Sturdy.callU (.plain (.removeRight 10)) ⟨2, none⟩ m = .panic none m' ∧ m'.lenLeft = 0 ∧ m'.lenRight = 1 ∧
      m'.iterPairedList.toOption = some [] := by
  let _ := swissRaw 4; have := swissRaw_lawful 4
  let calls : List (Fate × Call Nat Nat) :=
    [(⟨99, none⟩, .plain (.insert 1 10)), (⟨99, none⟩, .plain (.insert 2 10)), (⟨99, none⟩, .plain (.insertRight 20)),
      (⟨3, none⟩, .plain (.pair 1 20)), (⟨3, none⟩, .plain (.insertLeft 1 20)), (⟨7, none⟩, .plain (.swapRight 10 40)),
      (⟨7, none⟩, .plain (.insert 4 40))]
  obtain ⟨m, e, h⟩ := ranU (e := Sturdy.runU (withCapacityAndHasher 0 spreadHash) calls)
    (p := fun m => decide (m.getRight 1 = some 10 ∧ m.getRight 2 = some 10 ∧ m.isRightPaired 20 = false ∧ m.lenLeft = 2 ∧ m.lenRight = 2) &&
      (Sturdy.callU (.plain (.removeRight 10)) ⟨2, none⟩ m).leaves fun m' : GroupMap Nat Nat =>
        decide (m'.lenLeft = 0 ∧ m'.lenRight = 1 ∧ m'.iterPairedList.toOption = some [])) (by decide +kernel)
  rw [Bool.and_eq_true, decide_eq_true_eq] at h
  obtain ⟨m', e', h'⟩ := Halt.of_leaves h.2
  obtain ⟨m1, c, e1, hl, -⟩ := C153_history (.new 0 spreadHash) calls (by simp [calls])
  rw [e] at e1; cases e1
  exact ⟨m, m', e, hl, h.1.1, h.1.2.1, h.1.2.2.1, h.1.2.2.2.1, h.1.2.2.2.2, e', of_decide_eq_true h'⟩

end Verif.GroupMap
