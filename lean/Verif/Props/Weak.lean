import Verif.CycleMap.Weak
import Verif.Props.Always
/-!
Property C139: `CycleMap` with items whose `==` is not an equivalence.

`Hash` and `Eq` of the items are written by the user.  Nothing is asked of `==` here; only that items that are `==` have
the same hash.  `CycleWeak.Step` (see `Verif.CycleMap.WeakSpec`) says what each call may do: where several pairs match an
item, any one of them may be found.
-/
set_option linter.unusedSectionVars false
namespace Verif.CycleMap
open CycleSpec CycleWeak OptionalPair

variable [RawImpl] [LawfulRaw] {L R : Type} [BEq L] [BEq R]

/-! ### C139 -/

/-- C139: for every history of calls, whatever `==` is, no call panics except as `Calm` says, every result is one that
the list of pairs allows, and at the end the two sides are linked as in the list. -/
theorem C139_history (hb : BuildHasher L R) (n : Nat) (ops : List (Op L R)) (hs : CalmRun [] ops) :
    ∃ os m' c', (withCapacityAndHasher n hb).run ops = .ok (os, m') ∧ CycleWeak.Steps [] ops os c' ∧ Links m' c' := by
  obtain ⟨os, m', qs, e, s, h⟩ := run_weak (withCapacity_weak n hb) hs
  exact ⟨os, m', _, e, s, h.links⟩

/-- C139, with calls that may panic: if the history returns, the same holds. -/
theorem C139_history_ok (hb : BuildHasher L R) (n : Nat) (ops : List (Op L R)) (hs : SaneRun [] ops) {os : List (Out L R)}
    {m' : CycleMap L R} (e : (withCapacityAndHasher n hb).run ops = .ok (os, m')) :
    ∃ c', CycleWeak.Steps [] ops os c' ∧ Links m' c' := by
  obtain ⟨qs, s, h⟩ := run_weak_ok (withCapacity_weak n hb) hs e
  exact ⟨_, s, h.links⟩

/-- C139: where `==` is an equivalence and no two pairs share an item, there is only one pair to find: taking out is what
it is in the specification of the other properties. -/
theorem C139_lawful [EquivBEq L] [EquivBEq R] {c : List (L × R)} (h : OneToOne c) (l : L) (r : R) (o : Option (L × R))
    (c' : List (L × R)) :
    (TakeL c l o c' ↔ o = findL c l ∧ c'.Perm (eraseL c l)) ∧ (TakeR c r o c' ↔ o = findR c r ∧ c'.Perm (eraseR c r)) := by
  have noneL : NoL c l → findL c l = none ∧ eraseL c l = c := fun hn =>
    ⟨List.find?_eq_none.2 fun p hp => by rw [hn p hp]; simp, List.filter_eq_self.2 fun p hp => by rw [hn p hp]; rfl⟩
  have noneR : NoR c r → findR c r = none ∧ eraseR c r = c := fun hn =>
    ⟨List.find?_eq_none.2 fun p hp => by rw [hn p hp]; simp, List.filter_eq_self.2 fun p hp => by rw [hn p hp]; rfl⟩
  have symm : ∀ {a b : L × R}, ((a.1 == b.1) = false ∧ (a.2 == b.2) = false) → ((b.1 == a.1) = false ∧ (b.2 == a.2) = false) :=
    fun {a b} h => ⟨by rw [BEq.comm]; exact h.1, by rw [BEq.comm]; exact h.2⟩
  have someL : ∀ p d, (l == p.1) = true → c.Perm (p :: d) → findL c l = some p ∧ (eraseL c l).Perm d := by
    intro p d hl hp
    have h' : OneToOne (p :: d) := (hp.pairwise_iff symm).1 h
    have hd : ∀ q ∈ d, (l == q.1) = false := fun q hq => beq_false_of_left hl ((List.pairwise_cons.1 h').1 q hq).1
    constructor
    · cases hf : findL c l with
      | none => exact absurd hl (by simpa using List.find?_eq_none.1 hf p (hp.mem_iff.2 List.mem_cons_self))
      | some q =>
        have hq : (l == q.1) = true := List.find?_some (p := fun p : L × R => l == p.1) hf
        rcases List.mem_cons.1 (hp.mem_iff.1 (List.mem_of_find?_eq_some hf)) with rfl | hm
        · rfl
        · rw [hd q hm] at hq; cases hq
    · refine (hp.filter _).trans ?_
      rw [List.filter_cons, hl, if_neg (by simp), List.filter_eq_self.2]
      intro q hq; rw [hd q hq]; rfl
  have someR : ∀ p d, (r == p.2) = true → c.Perm (p :: d) → findR c r = some p ∧ (eraseR c r).Perm d := by
    intro p d hl hp
    have h' : OneToOne (p :: d) := (hp.pairwise_iff symm).1 h
    have hd : ∀ q ∈ d, (r == q.2) = false := fun q hq => beq_false_of_left hl ((List.pairwise_cons.1 h').1 q hq).2
    constructor
    · cases hf : findR c r with
      | none => exact absurd hl (by simpa using List.find?_eq_none.1 hf p (hp.mem_iff.2 List.mem_cons_self))
      | some q =>
        have hq : (r == q.2) = true := List.find?_some (p := fun p : L × R => r == p.2) hf
        rcases List.mem_cons.1 (hp.mem_iff.1 (List.mem_of_find?_eq_some hf)) with rfl | hm
        · rfl
        · rw [hd q hm] at hq; cases hq
    · refine (hp.filter _).trans ?_
      rw [List.filter_cons, hl, if_neg (by simp), List.filter_eq_self.2]
      intro q hq; rw [hd q hq]; rfl
  constructor
  · constructor
    · rintro (⟨rfl, hn, hp⟩ | ⟨p, rfl, hl, hp⟩)
      · exact ⟨(noneL hn).1.symm, by rw [(noneL hn).2]; exact hp⟩
      · exact ⟨(someL p c' hl hp).1.symm, (someL p c' hl hp).2.symm⟩
    · rintro ⟨rfl, hp⟩
      by_cases hn : NoL c l
      · exact .inl ⟨(noneL hn).1, hn, by rw [← (noneL hn).2]; exact hp⟩
      · simp only [NoL, Classical.not_forall, Bool.not_eq_false] at hn
        obtain ⟨p, hm, hl⟩ := hn
        obtain ⟨d, hd⟩ := perm_cons_of_mem hm
        obtain ⟨h1, h2⟩ := someL p d hl hd
        exact .inr ⟨p, h1, hl, hd.trans (.cons _ (hp.trans h2).symm)⟩
  · constructor
    · rintro (⟨rfl, hn, hp⟩ | ⟨p, rfl, hl, hp⟩)
      · exact ⟨(noneR hn).1.symm, by rw [(noneR hn).2]; exact hp⟩
      · exact ⟨(someR p c' hl hp).1.symm, (someR p c' hl hp).2.symm⟩
    · rintro ⟨rfl, hp⟩
      by_cases hn : NoR c r
      · exact .inl ⟨(noneR hn).1, hn, by rw [← (noneR hn).2]; exact hp⟩
      · simp only [NoR, Classical.not_forall, Bool.not_eq_false] at hn
        obtain ⟨p, hm, hl⟩ := hn
        obtain ⟨d, hd⟩ := perm_cons_of_mem hm
        obtain ⟨h1, h2⟩ := someR p d hl hd
        exact .inr ⟨p, h1, hl, hd.trans (.cons _ (hp.trans h2).symm)⟩

/-- C139, why `Calm` asks for reflexivity: one item that is not equal to itself (such as a NaN) makes `iter` panic. -/
theorem C139_iter_panics (hb : BuildHasher L R) (n : Nat) {x : L} (hx : (x == x) = false) (r : R) :
    ∃ e, (withCapacityAndHasher n hb).run [.insert x r, .iter] = .error e := by
  obtain ⟨o₁, o₂, m1, qs, e1, ⟨c₁, c₂, t1, t2, hp⟩, h1, -⟩ := insert_weak (withCapacity_weak n hb) x r
  have hc1 : c₁ = [] := by
    rcases t1 with ⟨-, -, hp⟩ | ⟨p, -, -, hp⟩
    · exact List.perm_nil.1 hp
    · exact absurd hp.symm (List.not_perm_nil_cons _ _ ∘ List.Perm.symm)
  subst hc1
  have hc2 : c₂ = [] := by
    rcases t2 with ⟨-, -, hp⟩ | ⟨p, -, -, hp⟩
    · exact List.perm_nil.1 hp
    · exact absurd hp.symm (List.not_perm_nil_cons _ _ ∘ List.Perm.symm)
  subst hc2
  rcases exec_weak h1 .iter trivial with ⟨o, m2, q2, -, ⟨⟨d, ⟨hd, hx'⟩, -⟩, -⟩, -⟩ | ⟨⟨e, he⟩, -⟩
  · exfalso
    have h2 : (d.map (·.1)).Perm [x] := hd.trans (by simpa using hp.map (·.1))
    rw [List.perm_singleton] at h2
    match d, h2 with
    | [y], h2 =>
      simp at h2
      obtain ⟨p, hpm, h3, -⟩ := hx' y (by simp)
      have := hp.mem_iff.1 hpm
      simp at this
      rw [h2, this, hx] at h3; cases h3
  · exact ⟨e, by simp only [run, exec] at he ⊢; simp only [e1, bind, Except.bind, pure, Except.pure] at he ⊢; rw [he]⟩

/-- numbers that are `==` if they differ by at most one: reflexive and symmetric, but not transitive -/
structure Demo.Near where
  val : Nat
  deriving DecidableEq

open Demo in
instance : BEq Near := ⟨fun a b => a.val ≤ b.val + 1 && b.val ≤ a.val + 1⟩

open Demo in
def Demo.nearHash : BuildHasher Near Nat := ⟨fun _ => 0, fun _ => 0, fun _ _ _ => rfl, fun _ _ _ => rfl⟩

/-- numbers of which `0` is not equal to itself, as NaN is among the floats -/
structure Demo.Odd where
  val : Nat
  deriving DecidableEq

open Demo in
instance : BEq Odd := ⟨fun a b => a.val == b.val && a.val != 0⟩

open Demo in
def Demo.oddHash : BuildHasher Odd Nat := ⟨fun _ => 7, fun _ => 0, fun _ _ _ => rfl, fun _ _ _ => rfl⟩

open Demo in
/-- the history that `C139_wrong_partner` is about -/
def Demo.nearOps : List (Op Near Nat) := [.insert ⟨1⟩ 10, .insert ⟨3⟩ 30, .insert ⟨2⟩ 20, .iter, .drain 5]

open Demo

/-- C139, why the pairs that `iter` shows need not be the pairs of the map: with an `==` that is not transitive, `iter`
shows `3` with the partner of `2`, while `drain` hands out the pair `(3, 30)`. -/
theorem C139_wrong_partner : ∃ x : List (Out Near Nat) × CycleMap Near Nat,
    (letI := swissRaw 4; (withHasher nearHash).run nearOps) = .ok x ∧
      (match x.1 with
        | [_, _, _, .pairs a, .pairs b] =>
          decide (a = [(⟨2⟩, 20), (⟨3⟩, 20)]) && decide (b = [(⟨2⟩, 20), (⟨3⟩, 30)])
        | _ => false) = true :=
  ran (e := letI := swissRaw 4; (withHasher nearHash).run nearOps)
    (p := fun x : List (Out Near Nat) × CycleMap Near Nat => match x.1 with
        | [_, _, _, .pairs a, .pairs b] =>
          decide (a = [(⟨2⟩, 20), (⟨3⟩, 20)]) && decide (b = [(⟨2⟩, 20), (⟨3⟩, 30)])
        | _ => false) (by decide +kernel)

/-- a history over an `==` that is not transitive: `C139_history` applies -/
example : CalmRun ([] : List (Near × Nat)) [.insert ⟨1⟩ 10, .extend [(⟨3⟩, 30), (⟨2⟩, 20)], .swapLeft ⟨2⟩ ⟨4⟩, .iter,
    .retain Nat (fun s _ r => (r < s, s + 1)) 15, .drainFilter Nat (fun s _ _ => (s % 2 == 0, s + 1)) 0 1, .iter] := by
  have h : ∀ x : Near, (x == x) = true := fun x => by
    change (decide (x.val ≤ x.val + 1) && decide (x.val ≤ x.val + 1)) = true
    simp
  simp [CalmRun, Sane, Calm, h]

/-- and one over an `==` that is not reflexive: the item that is not equal to itself can be put in twice, and only
bulk calls get it out -/
example : CalmRun ([] : List (Odd × Nat)) [.insert ⟨0⟩ 10, .insert ⟨0⟩ 20, .insert ⟨1⟩ 10, .removeViaLeft ⟨0⟩, .swapRight 20 30,
    .iterLeft, .drainFilterAll Nat (fun s _ _ => (true, s)) 0] := by
  simp [CalmRun, Sane, Calm]

example : ∃ e, (withCapacityAndHasher 0 oddHash).run [.insert ⟨0⟩ 10, .iter] = .error e :=
  C139_iter_panics oddHash 0 (by decide) 10

end Verif.CycleMap
