import Verif.CycleMap.Sturdy
import Verif.Props.Unwind
/-! Property C152: a repair of `CycleMap` that survives panics of `Hash` and `Eq` (see `Verif.CycleMap.Sturdy`). -/
set_option linter.unusedSectionVars false
namespace Verif.CycleMap
open CycleSpec OptionalPair
variable [RawImpl] [LawfulRaw] {L R : Type} [BEq L] [BEq R] [EquivBEq L] [EquivBEq R]
variable {m m' : CycleMap L R} {c : List (L × R)}

/-- C152: a call of the repaired map that is not interrupted returns, changes and panics as the call of the crate does, and no call
is interrupted if the items' own code does not panic. -/
theorem C152_agrees (m : CycleMap L R) (op : Op L R) :
    (∀ f o f' m', Sturdy.execU op f m = .done o f' m' → m.exec op = .ok (o, m')) ∧
    (∀ f p m', Sturdy.execU op f m = .panic (some p) m' → m.exec op = .error p) ∧
    (∃ k, ∀ f, k ≤ f.fuse → ∀ m', Sturdy.execU op f m ≠ .panic none m') := by
  have h := Sturdy.execU_follows (m := m) op
  refine ⟨fun f o f' m' e => ?_, fun f p m' e => ?_, ?_⟩
  · have := h.agrees f; rw [e] at this; exact this
  · have := h.agrees f; rw [e] at this; exact this
  · obtain ⟨k, hk⟩ := h.calm
    refine ⟨k, fun f hf m' e => ?_⟩
    have := (hk f hf).1
    rw [e] at this; cases this

/-- The maps that histories of repaired calls produce in which `Hash`, `Eq`, closures and the crate itself may panic, every panic is
caught and the map used further; apart from early-dropped drains and unlawful `Clone`s, as in `Reachable`. -/
inductive Lived : CycleMap L R → Prop
  | new (n : Nat) (hb : BuildHasher L R) : Lived (withCapacityAndHasher n hb)
  | returned {m m' : CycleMap L R} {call : Call L R} {f f' : Fate} {o : Out L R} : Lived m →
      (∀ n, call = .plain (.drain n) → m.len ≤ n) →
      (∀ cl cr, call = .plain (.clone cl cr) → (∀ x, (cl x == x) = true) ∧ (∀ x, (cr x == x) = true)) →
      Sturdy.callU call f m = .done o f' m' → Lived m'
  | panicked {m m' : CycleMap L R} {call : Call L R} {f : Fate} {why : Option Panic} : Lived m →
      Sturdy.callU call f m = .panic why m' → Lived m'

/-- the pairs `d` a call with a panicking closure, or another, may leave when it panics -/
def LeavesCall (c : List (L × R)) : Call L R → List (L × R) → Prop
  | .plain op, d => Sturdy.Leaves c op d
  | .retain _ _ _, d => d = c
  | .drainFilter _ _ _ _, d => ∃ gone, (gone ++ d).Perm c

/-- a repaired call that is interrupted, or whose closure panics, leaves a valid map -/
theorem Repr.interrupted (h : Repr m c) (call : Call L R) (f : Fate) (e : Sturdy.callU call f m = .panic none m') :
    ∃ d, LeavesCall c call d ∧ Repr m' d := by
  cases call with
  | plain op =>
    have h1 := Sturdy.execU_leaves (S := fun _ => True) h op f trivial
    rw [show Sturdy.execU op f m = _ from e] at h1
    exact h1 rfl
  | retain σ g s => exact ⟨c, rfl, by rw [C106_retain_partial m m' g s f e]; exact h⟩
  | drainFilter σ g s n =>
    obtain ⟨w, v, r, k, m1, hp, e1, h1, -⟩ := drainFilterP_refines h g s n
    have e2 := (C105_closures m g s).2 n f _ _ _ _ e1
    rw [show callU (.drainFilter σ g s n) f m = _ from e] at e2
    cases w with
    | returned => cases e2
    | panicked =>
      cases e2
      refine ⟨_, ⟨(split (onPair (calm g)) v s).1, ?_⟩, h1⟩
      rw [← List.append_assoc]
      exact ((split_perm _ v s).symm.append_right r).trans hp
    | aborted => cases e2

/-- the only panic of the crate itself is `unreachable!` in `swap_right_or_insert`, after the pair has been inserted -/
theorem Repr.own_panic (h : Repr m c) (call : Call L R) (f : Fate) (p : Panic)
    (e : Sturdy.callU call f m = .panic (some p) m') :
    p = .unreachable ∧ ∃ old new l, call = .plain (.swapRightOrInsert old new l) ∧
      Repr m' (CycleSpec.insert c l new).2 := by
  cases call with
  | plain op =>
    have e1 := (C152_agrees m op).2.1 f p m' e
    have hs : ¬ Safe c op := by
      intro hs
      obtain ⟨o, m1, c', e2, -⟩ := exec_simulates h hs
      rw [e2] at e1; cases e1
    cases op
    case swapRightOrInsert a b l =>
      have e2 := swapRightOrInsert_panics h a b l hs
      simp only [exec, e2, bind, Except.bind] at e1
      cases e1
      have h2 := Sturdy.swapRightOrInsertU_own h (new := b) hs f trivial
      rw [show Sturdy.execU (.swapRightOrInsert a b l) f m = _ from e] at h2
      exact ⟨rfl, a, b, l, rfl, h2 rfl⟩
    case drain n =>
      obtain ⟨d, m1, -, e2, -⟩ := drainTake_refines h n
      simp only [exec, e2, bind, Except.bind, pure, Except.pure] at e1
      cases e1
    case clone => simp only [exec] at e1; cases e1
    all_goals exact absurd trivial hs
  | retain σ g s =>
    have h1 := (C105_closures m g s).1.2.1 f p m' e
    obtain ⟨d, m1, -, ⟨-, e2⟩ | ⟨-, e2, -⟩⟩ := retainP_refines h g s
    · rw [e2] at h1; cases h1
    · rw [e2] at h1; cases h1
  | drainFilter σ g s n =>
    obtain ⟨w, v, r, k, m1, hp, e1, h1, -⟩ := drainFilterP_refines h g s n
    have e2 := (C105_closures m g s).2 n f _ _ _ _ e1
    rw [show callU (.drainFilter σ g s n) f m = _ from e] at e2
    cases w <;> cases e2

theorem Lived.repr (h : Lived m) : ∃ c, Repr m c := by
  induction h with
  | new n hb => exact ⟨[], withCapacity_repr n hb⟩
  | @returned m m' call f f' o _ hd hcl e ih =>
    obtain ⟨c, h⟩ := ih
    cases call with
    | plain op =>
      have e1 := (C152_agrees m op).1 f o f' m' e
      by_cases hs : Safe c op
      · obtain ⟨o', m'', c', e', _, h'⟩ := exec_simulates h hs
        rw [e1] at e'; cases e'
        exact ⟨c', h'⟩
      · exfalso
        cases op <;> simp only [Safe, not_true_eq_false] at hs
        · rw [exec, swapRightOrInsert_panics h _ _ _ hs] at e1; cases e1
        · rw [← len_refines h] at hs; exact hs (hd _ rfl)
        · exact hs (hcl _ _ rfl)
    | retain σ g s =>
      obtain ⟨t, h1⟩ := (C105_closures m g s).1.1 f o f' m' e
      obtain ⟨d, m1, -, ⟨-, e2⟩ | ⟨-, e2, h2⟩⟩ := retainP_refines h g s
      · rw [e2] at h1; cases h1
      · rw [e2] at h1; cases h1; exact ⟨_, h2⟩
    | drainFilter σ g s n =>
      obtain ⟨w, v, r, k, m1, hp, e1, h1, -⟩ := drainFilterP_refines h g s n
      have e2 := (C105_closures m g s).2 n f _ _ _ _ e1
      rw [show callU (.drainFilter σ g s n) f m = _ from e] at e2
      cases w with
      | returned => cases e2; exact ⟨_, h1⟩
      | panicked => cases e2
      | aborted => cases e2
  | @panicked m m' call f why _ e ih =>
    obtain ⟨c, h⟩ := ih
    cases why with
    | none => obtain ⟨d, -, h1⟩ := h.interrupted call f e; exact ⟨d, h1⟩
    | some p => obtain ⟨-, _, _, _, -, h1⟩ := h.own_panic call f p e; exact ⟨_, h1⟩

/-- C152: whatever has panicked, and however often, the repaired map is a one-to-one map that works. -/
theorem C152_works (h : Lived m) : ∃ c, Works m c := by
  obtain ⟨c, hc⟩ := h.repr
  exact ⟨c, hc.works⟩

/-- the contents of such a map are what it shows -/
theorem Lived.repr_of_shows (h : Lived m) (hs : Shows m c) : Repr m c := by
  obtain ⟨d, hd⟩ := h.repr
  obtain ⟨ps, e, hp⟩ := hs.iter
  obtain ⟨qs, e', hq⟩ := iterList_refines hd
  rw [e] at e'; cases e'
  exact hd.perm (hq.symm.trans hp)

/-- C152: a repaired call interrupted by a panic of `Hash`, `Eq` or a closure leaves a map that works, and its pairs are those the
map had, except pairs of items that were to be put in, or that `drain_filter` has yielded (`LeavesCall`). -/
theorem C152_interrupted (hm : Lived m) (hc : Shows m c) (call : Call L R) (f : Fate)
    (e : Sturdy.callU call f m = .panic none m') : ∃ d, LeavesCall c call d ∧ Works m' d := by
  obtain ⟨d, h1, h2⟩ := (hm.repr_of_shows hc).interrupted call f e
  exact ⟨d, h1, h2.works⟩

/-- C152: the panic of the crate itself is the one of C107. -/
theorem C152_own_panic (hm : Lived m) (hc : Shows m c) (call : Call L R) (f : Fate) (p : Panic)
    (e : Sturdy.callU call f m = .panic (some p) m') :
    p = .unreachable ∧ ∃ old new l, call = .plain (.swapRightOrInsert old new l) ∧
      Works m' (CycleSpec.insert c l new).2 := by
  obtain ⟨h1, a, b, l, h2, h3⟩ := (hm.repr_of_shows hc).own_panic call f p e
  exact ⟨h1, a, b, l, h2, h3.works⟩

omit [RawImpl] [LawfulRaw] in
/-- the two witnesses against the crate's own calls (`C106_witness`, `C106_witness_insert`), repaired: `swap_left(&1, 2)` whose last
probe panics leaves `(1, 10)`, and no fuse makes `insert(4, 40)` lose a partner: interrupted, it leaves the three pairs -/
example : letI := swissRaw 4
    ∃ m m' m'', Lived m ∧ Sturdy.callU (.plain (.swapLeft 1 2)) ⟨4, none⟩ m = .panic none m' ∧
      m'.getRight 1 = some 10 ∧ m'.getLeft 10 = some 1 ∧ m'.iterList.toOption = some [(1, 10)] ∧
      Sturdy.callU (.plain (.insert 4 40)) ⟨5, none⟩ m' = .panic none m'' ∧ m''.iterList.toOption = some [(1, 10)] ∧
      Sturdy.callU (.plain (.insert 4 40)) ⟨10, none⟩ m' ≠ .panic none m'' := by
  let _ := swissRaw 4
  have key : (match Sturdy.callU (.plain (.insert 1 10)) ⟨99, none⟩ (withCapacityAndHasher 0 idHash) with
      | .done _ _ m => (Sturdy.callU (.plain (.swapLeft 1 2)) ⟨4, none⟩ m).leaves fun m' : CycleMap Nat Nat =>
        decide (m'.getRight 1 = some 10 ∧ m'.getLeft 10 = some 1 ∧ m'.iterList.toOption = some [(1, 10)]) &&
        (Sturdy.callU (.plain (.insert 4 40)) ⟨5, none⟩ m').leaves (fun m'' : CycleMap Nat Nat =>
          decide (m''.iterList.toOption = some [(1, 10)])) &&
        !(Sturdy.callU (.plain (.insert 4 40)) ⟨10, none⟩ m').interrupted
      | _ => false) = true := by decide +kernel
  cases e : Sturdy.callU (.plain (.insert 1 10)) ⟨99, none⟩ (withCapacityAndHasher 0 idHash) with
  | done o f m =>
    rw [e] at key
    obtain ⟨m', e', h⟩ := Halt.of_leaves key
    rw [Bool.and_eq_true, Bool.and_eq_true, decide_eq_true_eq] at h
    obtain ⟨m'', e'', h''⟩ := Halt.of_leaves h.1.2
    refine ⟨m, m', m'', .returned (.new 0 idHash) (by simp) (by simp) e, e', h.1.1.1, h.1.1.2.1, h.1.1.2.2, e'', of_decide_eq_true h'', ?_⟩
    intro hx
    rw [hx] at h
    exact absurd h.2 (by simp [Halt.interrupted])
  | panic => rw [e] at key; cases key
  | abort => rw [e] at key; cases key

omit [RawImpl] [LawfulRaw] in
/-- on that history the crate's own `swap_left` leaves a map on which `iter()` panics, so it is not `Lived` -/
example : letI := swissRaw 4; haveI := swissRaw_lawful 4
    ∃ m m' : CycleMap Nat Nat, execU (.swapLeft 1 2) ⟨4, none⟩ m = .panic none m' ∧ ¬ Lived m' := by
  let _ := swissRaw 4; have := swissRaw_lawful 4
  obtain ⟨m, m', -, -, e, -, -, -, -, h, -⟩ := C106_witness
  refine ⟨m, m', e, fun hl => ?_⟩
  obtain ⟨c, hc⟩ := hl.repr
  obtain ⟨ps, e2, -⟩ := hc.shows.iter
  rw [e2] at h; cases h

end Verif.CycleMap
