import Verif.GroupMap.WeakExec
import Verif.GroupMap.WeakLawful
import Verif.Props.WeakPartial
/-!
Property C143: `GroupMap` with items whose `==` is not an equivalence.

As in C139 and C142 nothing is asked of `==`; only that items that are `==` have the same hash.  `GroupWeak.Step` (see
`Verif.GroupMap.WeakSpec`) says what each call may do: where several stored items match an item, any one of them may
be found.
-/
set_option linter.unusedSectionVars false
namespace Verif.GroupMap
open GroupWeak

variable [RawImpl] [LawfulRaw] {L R : Type} [BEq L] [BEq R]

/-! ### C143 -/

/-- C143: for every history of calls that `Sane` covers, whatever `==` is, no call panics except as `Calm` says, every
result is one that the groups allow, and at the end every left item belongs to one right item as in the groups. -/
theorem C143_history (hb : BuildHasher L R) (n : Nat) (ops : List (Op L R)) (hs : CalmRun ⟨[], []⟩ ops) :
    ∃ os m' c', (withCapacityAndHasher n hb).run ops = .ok (os, m') ∧ GroupWeak.Steps ⟨[], []⟩ ops os c' ∧ Links m' c' := by
  obtain ⟨os, m', ls, rs, e, s, h⟩ := run_weak (withCapacity_weak n hb) hs
  exact ⟨os, m', _, e, s, h.links⟩

/-- C143, with calls that may panic: if the history returns, the same holds. -/
theorem C143_history_ok (hb : BuildHasher L R) (n : Nat) (ops : List (Op L R)) (hs : SaneRun ⟨[], []⟩ ops) {os : List (Out L R)}
    {m' : GroupMap L R} (e : (withCapacityAndHasher n hb).run ops = .ok (os, m')) :
    ∃ c', GroupWeak.Steps ⟨[], []⟩ ops os c' ∧ Links m' c' := by
  obtain ⟨ls, rs, s, h⟩ := run_weak_ok (withCapacity_weak n hb) hs e
  exact ⟨_, s, h.links⟩

/-- C143: where `==` is an equivalence and no item is there twice, there is only one item to find: taking out is what it
is in the specification of the other properties. -/
theorem C143_lawful [EquivBEq L] [EquivBEq R] {g g' : Groups L R} (h : Sound g) (ha : Apart g) :
    (∀ l o, TakeL g l o g' → o.map (·.1) = (GroupSpec.findL (contents g) l).map (·.1) ∧
      (contents g').Same (GroupSpec.eraseL (contents g) l)) ∧
    (∀ r o, TakeR g r o g' → GroupSpec.SameEntry o (GroupSpec.entryR (contents g) r) ∧
      (contents g').Same (GroupSpec.eraseR (contents g) r)) :=
  ⟨fun _ _ ht => takeL_lawful h ha ht, fun _ _ ht => takeR_lawful h ha ht⟩

/-- C143: where `==` is an equivalence and no item is there twice, what `Sane` asks for `pair` and `Calm` for
`retain_unpaired` always holds, and `retain_unpaired` drops just the lone items that the closure accepts. -/
theorem C143_lawful_sane [EquivBEq L] [EquivBEq R] {g : Groups L R} (ha : Apart g) (l : L) (r : R)
    {σ : Type} (f : σ → R → Bool × σ) (s : σ) :
    Sane g (.pair l r) ∧ Calm g (.retainUnpaired σ f s) ∧
    ∀ o g', GroupWeak.Step g (.retainUnpaired σ f s) o g' →
      g'.lefts.Perm g.lefts ∧ ∃ d, d.Perm (lone g) ∧
        (g'.rights.Perm (g.rights.filter fun y => !(((CycleSpec.split (fun s (y : Nat × R) => f s y.2) d s).1.map (·.1)).contains y.1))) := by
  have hlone : ∀ y ∈ lone g, y ∈ g.rights ∧ g.lefts.any (·.2 == y.1) = false := fun y hy => by
    have := List.mem_filter.1 hy
    exact ⟨this.1, by simpa using this.2⟩
  refine ⟨fun y z hy hz => ha.onlyR hy hz, fun y hy _ _ => ⟨y, (hlone y hy).1, BEq.rfl⟩, ?_⟩
  rintro o g' ⟨-, d, js, hd, hp, h1, h2⟩
  have hmem : ∀ y ∈ (CycleSpec.split (fun s (y : Nat × R) => f s y.2) d s).1, y ∈ lone g := fun y hy =>
    hd.mem_iff.1 ((split_perm _ d s).mem_iff.1 (List.mem_append_left _ hy))
  have hjs := picks_lawful ha (fun y hy => (hlone y (hmem y hy)).1) hp
  subst hjs
  refine ⟨h2.trans (.of_eq (List.filter_eq_self.2 fun x hx => ?_)), d, hd, h1⟩
  rw [Bool.not_eq_true', ← Bool.not_eq_true, List.contains_iff_mem]
  intro hc
  obtain ⟨y, hy, e⟩ := List.mem_map.1 hc
  have := List.any_eq_false.1 (hlone y (hmem y hy)).2 x hx
  simp [e] at this

/-- C143, why `Calm` asks for a match: one right item that is not equal to itself (such as a NaN) makes
`retain_unpaired` panic. -/
theorem C143_retain_panics (hb : BuildHasher L R) (n : Nat) {x : R} (hx : (x == x) = false) :
    ∃ e, (withCapacityAndHasher n hb).run [.insertRight x, .retainUnpaired Unit (fun s _ => (true, s)) ()] = .error e := by
  obtain ⟨o, m1, ls, rs, e1, ⟨d, i, t1, -, hr, hl⟩, h1, -⟩ := insertRight_weak (withCapacity_weak n hb) x
  have hd : d.rights = [] ∧ d.lefts = [] := by
    rcases t1 with ⟨-, -, hp⟩ | ⟨y, -, hp, -⟩
    · exact ⟨List.perm_nil.1 hp.1, List.perm_nil.1 hp.2⟩
    · exact absurd hp.symm (List.not_perm_nil_cons _ _ ∘ List.Perm.symm)
  rw [hd.1] at hr
  rw [hd.2] at hl
  have hl := List.perm_nil.1 hl
  have hr := List.perm_singleton.1 hr
  rcases exec_weak h1 (.retainUnpaired Unit (fun s _ => (true, s)) ()) trivial with
    ⟨o, m2, l2, r2, -, ⟨-, ds, js, hd, hp, -, -⟩, -⟩ | ⟨⟨e, he⟩, -⟩
  · exfalso
    have hlone : lone (groups ls rs) = [(i, x)] := by rw [lone, hr, hl]; rfl
    rw [hlone] at hd
    have := List.perm_singleton.1 hd
    subst this
    obtain ⟨z, -, -, hz, -⟩ := hp
    have hm := hz.1
    rw [hr, List.mem_singleton] at hm
    have := hz.2
    rw [hm] at this
    exact absurd this (by rw [hx]; simp)
  · exact ⟨e, by simp only [run, exec] at he ⊢; simp only [e1, bind, Except.bind, pure, Except.pure] at he ⊢; rw [he]⟩

open CycleMap.Demo (Near Odd)

/-- right items all have the same hash -/
def Demo.nearRight : BuildHasher Nat Near :=
  ⟨fun n => n.toUInt64, fun _ => 0, fun a b h => by rw [beq_iff_eq.1 h], fun _ _ _ => rfl⟩

/-- a lone right item, and a right item with two left items that is stored before it; the lone item is to go -/
def Demo.dropGroup : List (Op Nat Near) :=
  [.insertRight ⟨1⟩, .insertRight ⟨3⟩, .insertRight ⟨2⟩, .insertLeft 20 ⟨2⟩, .insertLeft 21 ⟨2⟩, .iterPaired, .iterUnpaired,
    .retainUnpaired Unit (fun s _ => (true, s)) (), .iterLeft, .iterRight]

open Demo

/-- C143, what an `==` that is not transitive leads to: `retain_unpaired`, told to drop the lone item `3`, keeps it and
drops the right item `2` together with its two left items, which were never shown to the closure. -/
theorem C143_retain_unpaired_drops_group : ∃ x : List (Out Nat Near) × GroupMap Nat Near,
    (letI := swissRaw 4; (withHasher nearRight).run dropGroup) = .ok x ∧
      (match x.1 with
        | [_, _, _, _, _, .pairs ps, .rights us, _, .lefts a, .rights b] =>
          decide (ps = [(20, ⟨2⟩), (21, ⟨2⟩)]) && decide (us = [⟨3⟩]) && decide (a = []) && decide (b = [⟨3⟩])
        | _ => false) = true :=
  ran (e := letI := swissRaw 4; (withHasher nearRight).run dropGroup)
    (p := fun x : List (Out Nat Near) × GroupMap Nat Near => match x.1 with
        | [_, _, _, _, _, .pairs ps, .rights us, _, .lefts a, .rights b] =>
          decide (ps = [(20, ⟨2⟩), (21, ⟨2⟩)]) && decide (us = [⟨3⟩]) && decide (a = []) && decide (b = [⟨3⟩])
        | _ => false) (by decide +kernel)

/-- a history over an `==` that is not transitive: `C143_history` applies -/
example : CalmRun (⟨[], []⟩ : Groups Nat Near) [.insert 10 ⟨1⟩, .insertRight ⟨3⟩, .insertRemove 20 ⟨2⟩, .insertLeft 21 ⟨2⟩, .iter,
    .getLeftIter ⟨3⟩, .remove 21 ⟨1⟩, .retainUnpaired Nat (fun s _ => (s % 2 == 0, s + 1)) 0, .iterPaired, .clone id id,
    .removeRight ⟨2⟩] := by
  have h : ∀ x : Near, (x == x) = true := fun x => by
    change (decide (x.val ≤ x.val + 1) && decide (x.val ≤ x.val + 1)) = true
    simp
  have hc : ∀ (c : Groups Nat Near) (y : Nat × Near), y ∈ lone c → ∃ z, Hit c y.2 z :=
    fun c y hy => ⟨y, (List.mem_filter.1 hy).1, h _⟩
  refine ⟨⟨fun y hy => (nomatch hy.1.1), trivial⟩, fun _ _ _ => ⟨⟨trivial, trivial⟩, fun _ _ _ => ⟨⟨trivial, trivial⟩, fun _ _ _ =>
    ⟨⟨trivial, trivial⟩, fun _ _ _ => ⟨⟨trivial, trivial⟩, fun _ _ _ => ⟨⟨trivial, trivial⟩, fun _ _ _ => ⟨⟨trivial, trivial⟩,
    fun _ c _ => ⟨⟨trivial, fun y hy _ _ => hc c y hy⟩, fun _ _ _ => ⟨⟨trivial, trivial⟩, fun _ _ _ => ⟨⟨⟨?_, h⟩, trivial⟩,
    fun _ _ _ => ⟨⟨trivial, trivial⟩, fun _ _ _ => trivial⟩⟩⟩⟩⟩⟩⟩⟩⟩⟩⟩
  intro x; exact BEq.rfl

/-- and one over an `==` that is not reflexive: the right item that is not equal to itself can be put in twice -/
example : CalmRun (⟨[], []⟩ : Groups Nat Odd) [.insert 1 ⟨0⟩, .insertRight ⟨0⟩, .insertRight ⟨5⟩, .insertLeft 2 ⟨5⟩, .isRightPaired ⟨0⟩,
    .iter, .removeLeft 1, .iterUnpaired, .removeRight ⟨0⟩] := by
  refine ⟨⟨fun y hy => (nomatch hy.1.1), trivial⟩, ?_⟩
  intros
  simp [CalmRun, Sane, Calm]

example : ∃ e, (withCapacityAndHasher (L := Nat) (R := Odd) 0 ⟨fun _ => 0, fun _ => 0, fun _ _ _ => rfl, fun _ _ _ => rfl⟩).run
    [.insertRight ⟨0⟩, .retainUnpaired Unit (fun s _ => (true, s)) ()] = .error e :=
  C143_retain_panics _ 0 (by decide)

/-- the groups that the lawful theorems are about -/
example : Sound (⟨[(0, 10), (1, 20), (2, 30)], [(1, 0), (2, 0), (3, 2)]⟩ : Groups Nat Nat) ∧
    Apart (⟨[(0, 10), (1, 20), (2, 30)], [(1, 0), (2, 0), (3, 2)]⟩ : Groups Nat Nat) := by
  refine ⟨⟨by simp, by simp⟩, by simp, by simp⟩

end Verif.GroupMap
