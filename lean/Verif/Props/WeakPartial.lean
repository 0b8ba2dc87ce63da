import Verif.PartialMap.WeakExec
import Verif.Props.Weak
/-!
Property C142: `PartialCycleMap` with items whose `==` is not an equivalence.

As in C139 nothing is asked of `==`; only that items that are `==` have the same hash.  `PartialWeak.Step` (see
`Verif.PartialMap.WeakSpec`) says what each call may do: where several entries match an item, any one of them may be
found.
-/
set_option linter.unusedSectionVars false
namespace Verif.PartialMap
open PartialSpec PartialWeak OptionalPair

variable [RawImpl] [LawfulRaw] {L R : Type} [BEq L] [BEq R]

/-! ### C142 -/

/-- C142: for every history of calls that `Sane` covers, whatever `==` is, no call panics except as `Calm` says, every
result is one that the list of entries allows, and at the end the two sides are linked as in the list. -/
theorem C142_history (hb : BuildHasher L R) (n : Nat) (ops : List (Op L R)) (hs : CalmRun hb [] ops) :
    ∃ os m' c', (withCapacityAndHasher n hb).run ops = .ok (os, m') ∧ PartialWeak.Steps [] ops os c' ∧ Links m' c' := by
  obtain ⟨os, m', qs, e, s, h⟩ := run_weak (withCapacity_weak n hb) hs
  exact ⟨os, m', _, e, s, h.links⟩

/-- C142, with calls that may panic: if the history returns, the same holds. -/
theorem C142_history_ok (hb : BuildHasher L R) (n : Nat) (ops : List (Op L R)) (hs : SaneRun hb [] ops) {os : List (Out L R)}
    {m' : PartialMap L R} (e : (withCapacityAndHasher n hb).run ops = .ok (os, m')) :
    ∃ c', PartialWeak.Steps [] ops os c' ∧ Links m' c' := by
  obtain ⟨qs, s, h⟩ := run_weak_ok (withCapacity_weak n hb) hs e
  exact ⟨_, s, h.links⟩

/-- C142: where `==` is an equivalence and no two entries share an item, there is only one entry to find: taking out is
what it is in the specification of the other properties. -/
theorem C142_lawful [EquivBEq L] [EquivBEq R] {c : List (OptionalPair L R)} (h : OneToOne c) (l : L) (r : R)
    (o : OptionalPair L R) (c' : List (OptionalPair L R)) :
    (TakeL c l o c' ↔ o = (findL c l).getD neither ∧ c'.Perm (eraseL c l)) ∧
    (TakeR c r o c' ↔ o = (findR c r).getD neither ∧ c'.Perm (eraseR c r)) := by
  have noneL : NoL c l → findL c l = none ∧ eraseL c l = c := fun hn =>
    ⟨List.find?_eq_none.2 fun p hp => by rw [hn p hp]; simp, List.filter_eq_self.2 fun p hp => by rw [hn p hp]; rfl⟩
  have noneR : NoR c r → findR c r = none ∧ eraseR c r = c := fun hn =>
    ⟨List.find?_eq_none.2 fun p hp => by rw [hn p hp]; simp, List.filter_eq_self.2 fun p hp => by rw [hn p hp]; rfl⟩
  have someL : ∀ p d, hasL l p = true → c.Perm (p :: d) → findL c l = some p ∧ (eraseL c l).Perm d := by
    intro p d hl hp
    have h' := (hp.pairwise_iff (fun {_ _} => Disj.symm)).1 h.1
    have hd : ∀ q ∈ d, hasL l q = false := fun q hq => hasL_false_of hl ((List.pairwise_cons.1 h').1 q hq)
    constructor
    · cases hf : findL c l with
      | none => exact absurd hl (by simpa using List.find?_eq_none.1 hf p (hp.mem_iff.2 List.mem_cons_self))
      | some q =>
        have hq : hasL l q = true := List.find?_some (p := hasL l) hf
        rcases List.mem_cons.1 (hp.mem_iff.1 (List.mem_of_find?_eq_some hf)) with rfl | hm
        · rfl
        · rw [hd q hm] at hq; cases hq
    · refine (hp.filter _).trans ?_
      rw [List.filter_cons, hl, if_neg (by simp), List.filter_eq_self.2]
      intro q hq; rw [hd q hq]; rfl
  have someR : ∀ p d, hasR r p = true → c.Perm (p :: d) → findR c r = some p ∧ (eraseR c r).Perm d := by
    intro p d hl hp
    have h' := (hp.pairwise_iff (fun {_ _} => Disj.symm)).1 h.1
    have hd : ∀ q ∈ d, hasR r q = false := fun q hq => hasR_false_of hl ((List.pairwise_cons.1 h').1 q hq)
    constructor
    · cases hf : findR c r with
      | none => exact absurd hl (by simpa using List.find?_eq_none.1 hf p (hp.mem_iff.2 List.mem_cons_self))
      | some q =>
        have hq : hasR r q = true := List.find?_some (p := hasR r) hf
        rcases List.mem_cons.1 (hp.mem_iff.1 (List.mem_of_find?_eq_some hf)) with rfl | hm
        · rfl
        · rw [hd q hm] at hq; cases hq
    · refine (hp.filter _).trans ?_
      rw [List.filter_cons, hl, if_neg (by simp), List.filter_eq_self.2]
      intro q hq; rw [hd q hq]; rfl
  constructor
  · constructor
    · rintro (⟨rfl, hn, hp⟩ | ⟨hl, hp⟩)
      · exact ⟨by rw [(noneL hn).1]; rfl, by rw [(noneL hn).2]; exact hp⟩
      · exact ⟨by rw [(someL o c' hl hp).1]; rfl, (someL o c' hl hp).2.symm⟩
    · rintro ⟨rfl, hp⟩
      by_cases hn : NoL c l
      · exact .inl ⟨by rw [(noneL hn).1]; rfl, hn, by rw [← (noneL hn).2]; exact hp⟩
      · simp only [NoL, Classical.not_forall, Bool.not_eq_false] at hn
        obtain ⟨p, hm, hl⟩ := hn
        obtain ⟨d, hd⟩ := perm_cons_of_mem hm
        obtain ⟨h1, h2⟩ := someL p d hl hd
        rw [h1]
        exact .inr ⟨hl, hd.trans (.cons _ (hp.trans h2).symm)⟩
  · constructor
    · rintro (⟨rfl, hn, hp⟩ | ⟨hl, hp⟩)
      · exact ⟨by rw [(noneR hn).1]; rfl, by rw [(noneR hn).2]; exact hp⟩
      · exact ⟨by rw [(someR o c' hl hp).1]; rfl, (someR o c' hl hp).2.symm⟩
    · rintro ⟨rfl, hp⟩
      by_cases hn : NoR c r
      · exact .inl ⟨by rw [(noneR hn).1]; rfl, hn, by rw [← (noneR hn).2]; exact hp⟩
      · simp only [NoR, Classical.not_forall, Bool.not_eq_false] at hn
        obtain ⟨p, hm, hl⟩ := hn
        obtain ⟨d, hd⟩ := perm_cons_of_mem hm
        obtain ⟨h1, h2⟩ := someR p d hl hd
        rw [h1]
        exact .inr ⟨hl, hd.trans (.cons _ (hp.trans h2).symm)⟩

/-- C142: where `==` is an equivalence and no two entries share an item, what `Sane` asks for `retain_paired` and
`retain_unpaired`, and `Calm` for the `retain` family, always holds. -/
theorem C142_lawful_sane [EquivBEq L] [EquivBEq R] (hb : BuildHasher L R) {c : List (OptionalPair L R)} (h : OneToOne c)
    {σ : Type} (f : σ → OptionalPair L R → Bool × σ) (g : σ → L → R → Bool × σ) (s : σ) :
    Calm c (.retain σ f s) ∧ (Sane hb c (.retainPaired σ g s) ∧ Calm c (.retainPaired σ g s)) ∧
    (Sane hb c (.retainUnpaired σ f s) ∧ Calm c (.retainUnpaired σ f s)) := by
  have key : ∀ {x e}, x ∈ c → e ∈ c → Disj x e ∨ x = e := by
    intro x e hx he
    obtain ⟨d, hd⟩ := perm_cons_of_mem hx
    rcases List.mem_cons.1 (hd.mem_iff.1 he) with rfl | hm
    · exact .inr rfl
    · exact .inl ((List.pairwise_cons.1 ((hd.pairwise_iff (fun {_ _} => Disj.symm)).1 h.1)).1 e hm)
  refine ⟨fun _ _ _ _ => BEq.rfl, ⟨fun a b a' b' d hd hl => ?_, fun _ _ _ _ _ => BEq.rfl⟩, fun x e hx he hm => ?_,
    fun _ _ _ => ⟨fun _ _ => BEq.rfl, fun _ _ => BEq.rfl⟩⟩
  · have h' := (hd.pairwise_iff (fun {_ _} => Disj.symm)).1 h.1
    have := ((List.pairwise_cons.1 h').1 _ List.mem_cons_self).1 a rfl
    simp only [hasL] at this
    rw [hl] at this; cases this
  · rcases key hx he with hd | rfl
    · rcases hm with ⟨a, rfl, ha⟩ | ⟨b, rfl, hb⟩
      · rw [hd.1 a rfl] at ha; cases ha
      · rw [hd.2 b rfl] at hb; cases hb
    · rcases hm with ⟨a, rfl, ha⟩ | ⟨b, rfl, hb⟩ <;> rfl

/-- C142, why `Calm` asks for reflexivity: one item that is not equal to itself (such as a NaN) makes `retain` panic. -/
theorem C142_retain_panics (hb : BuildHasher L R) (n : Nat) {x : L} (hx : (x == x) = false) :
    ∃ e, (withCapacityAndHasher n hb).run [.insertLeft x, .retain Unit (fun s _ => (true, s)) ()] = .error e := by
  obtain ⟨o, m1, qs, e1, ⟨c₁, t1, hp⟩, h1, -⟩ := insertLeft_weak (withCapacity_weak n hb) x
  have hc1 : c₁ = [] := by
    rcases t1 with ⟨-, -, hp⟩ | ⟨-, hp⟩
    · exact List.perm_nil.1 hp
    · exact absurd hp.symm (List.not_perm_nil_cons _ _ ∘ List.Perm.symm)
  subst hc1
  rcases exec_weak h1 (.retain Unit (fun s _ => (true, s)) ()) trivial with
    ⟨o, m2, q2, -, ⟨-, ds, d, hd, hpd, -, hx'⟩, -⟩ | ⟨⟨e, he⟩, -⟩
  · exfalso
    have h2 : (ds.filterMap leftOf).Perm [x] := hd.1.trans (by simpa [leftOf] using hp.filterMap leftOf)
    have hall : ∀ (ds : List (OptionalPair L R)), (CycleSpec.split (fun (s : Unit) (_ : OptionalPair L R) => (true, s)) ds ()).1 = ds := by
      intro ds
      induction ds with
      | nil => rfl
      | cons a ds ih => simp only [CycleSpec.split]; rw [ih]
    rw [hall] at hx'
    obtain ⟨y, hy, hyx⟩ := List.mem_filterMap.1 (h2.mem_iff.2 (List.mem_singleton.2 rfl))
    obtain ⟨e, he, a, ha, hh, -⟩ := hx' y hy
    rw [hyx] at ha; cases ha
    have hm := hp.mem_iff.1 (hpd.mem_iff.2 (List.mem_append_right _ he))
    rw [List.mem_singleton.1 hm] at hh
    exact absurd hh (by simp only [hasL]; rw [hx]; simp)
  · exact ⟨e, by simp only [run, exec] at he ⊢; simp only [e1, bind, Except.bind, pure, Except.pure] at he ⊢; rw [he]⟩

/-! The next two: what the calls that `Sane` leaves out can do. -/

open CycleMap.Demo (Near Odd)

/-- left items all have the same hash, right items different ones -/
def Demo.farHash : BuildHasher Near Nat :=
  ⟨fun _ => 0, fun n => n.toUInt64, fun _ _ _ => rfl, fun a b h => by rw [beq_iff_eq.1 h]⟩

/-- a lone item, then a pair that is stored before it; the lone item is to go -/
def Demo.tearUnpaired : List (Op Near Nat) :=
  [.insert ⟨1⟩ 10, .insertLeft ⟨3⟩, .insert ⟨2⟩ 20, .retainUnpaired Unit (fun s _ => (true, s)) (), .iterLeft, .iterRight,
    .isRightPaired 20, .getLeft 20, .iterPaired, .iterUnpaired]

/-- two pairs, of which the second is to go -/
def Demo.tearPaired : List (Op Near Nat) :=
  [.insert ⟨1⟩ 10, .insert ⟨3⟩ 30, .insert ⟨2⟩ 20, .retainPaired Unit (fun s _ r => (r == 30, s)) (), .iterLeft, .iterRight,
    .isLeftPaired ⟨2⟩, .getRight ⟨2⟩]

open Demo

/-- C142, what `Sane` excludes: with an `==` that is not transitive, `retain_unpaired`, told to drop the lone item `3`,
drops the left half of the pair `(2, 20)`.  The item `20` still counts as paired, has no partner, and is in neither
`iter_paired` nor `iter_unpaired`. -/
theorem C142_retain_unpaired_tears : ∃ x : List (Out Near Nat) × PartialMap Near Nat,
    (letI := swissRaw 4; (withHasher farHash).run tearUnpaired) = .ok x ∧
      (match x.1 with
        | [_, _, _, _, .lefts a, .rights b, .bool p, .left l, .pairs ps, .entries us] =>
          decide (a = [⟨3⟩]) && decide (b = [20]) && p && decide (l = none) && decide (ps = []) && decide (us = [someLeft ⟨3⟩])
        | _ => false) = true :=
  ran (e := letI := swissRaw 4; (withHasher farHash).run tearUnpaired)
    (p := fun x : List (Out Near Nat) × PartialMap Near Nat => match x.1 with
        | [_, _, _, _, .lefts a, .rights b, .bool p, .left l, .pairs ps, .entries us] =>
          decide (a = [⟨3⟩]) && decide (b = [20]) && p && decide (l = none) && decide (ps = []) && decide (us = [someLeft ⟨3⟩])
        | _ => false) (by decide +kernel)

/-- C142, what `Sane` excludes: `retain_paired`, told to drop the pair `(3, 30)`, drops the right half of `(2, 20)`.  (The
right item is looked for under the hash of `30`, but a table may find an item of another hash that has the same control
byte.)  The item `2` still counts as paired and has no partner, and `iter_paired` panics. -/
theorem C142_retain_paired_tears : (∃ x : List (Out Near Nat) × PartialMap Near Nat,
    (letI := swissRaw 4; (withHasher farHash).run tearPaired) = .ok x ∧
      (match x.1 with
        | [_, _, _, _, .lefts a, .rights b, .bool p, .right r] =>
          decide (a = [⟨2⟩, ⟨3⟩]) && decide (b = [30]) && p && decide (r = none)
        | _ => false) = true) ∧
    ∃ e, (letI := swissRaw 4; (withHasher farHash).run (tearPaired ++ [.iterPaired])) = .error e :=
  ⟨ran (e := letI := swissRaw 4; (withHasher farHash).run tearPaired)
    (p := fun x : List (Out Near Nat) × PartialMap Near Nat => match x.1 with
        | [_, _, _, _, .lefts a, .rights b, .bool p, .right r] =>
          decide (a = [⟨2⟩, ⟨3⟩]) && decide (b = [30]) && p && decide (r = none)
        | _ => false) (by decide +kernel),
   by
    have h : (Except.toOption (letI := swissRaw 4; (withHasher farHash).run (tearPaired ++ [.iterPaired]))).isNone = true := by
      decide +kernel
    cases he : (letI := swissRaw 4; (withHasher farHash).run (tearPaired ++ [.iterPaired])) with
    | ok x => rw [he] at h; cases h
    | error e => exact ⟨e, rfl⟩⟩

/-- a history over an `==` that is not transitive: `C142_history` applies -/
example : CalmRun farHash ([] : List (OptionalPair Near Nat)) [.insert ⟨1⟩ 10, .insertLeft ⟨3⟩, .extend [someBoth ⟨2⟩ 20, someRight 30],
    .pair ⟨3⟩ 30, .pairForced ⟨2⟩ 30, .swapLeft ⟨2⟩ ⟨4⟩, .iter, .retain Nat (fun s _ => (s % 2 == 0, s + 1)) 0, .removeLeft ⟨4⟩,
    .iterPaired] := by
  have h : ∀ x : Near, (x == x) = true := fun x => by
    change (decide (x.val ≤ x.val + 1) && decide (x.val ≤ x.val + 1)) = true
    simp
  simp [CalmRun, Sane, Calm, h]

/-- and one over an `==` that is not reflexive: the item that is not equal to itself can be put in twice -/
example : CalmRun CycleMap.Demo.oddHash ([] : List (OptionalPair Odd Nat)) [.insert ⟨0⟩ 10, .insertLeft ⟨0⟩, .insert ⟨1⟩ 10,
    .removeViaLeft ⟨0⟩, .pairForcedRemove ⟨0⟩ 10, .swapRight 20 30, .iterUnpaired, .drain 7] := by
  simp [CalmRun, Sane, Calm]

example : ∃ e, (withCapacityAndHasher 0 CycleMap.Demo.oddHash).run
    [.insertLeft ⟨0⟩, .retain Unit (fun s _ => (true, s)) ()] = .error e :=
  C142_retain_panics CycleMap.Demo.oddHash 0 (by decide)

/-- the contents that the lawful theorems are about -/
example : OneToOne ([someBoth 1 10, someLeft 2, someRight 20] : List (OptionalPair Nat Nat)) := by
  refine ⟨?_, by simp⟩
  simp [Disj, leftOf, rightOf, hasL, hasR]

end Verif.PartialMap
