import Verif.PartialMap.RepairPanics
import Verif.Props.RepairPartial
import Verif.Props.SturdyPartial
/-! Property C155: the repaired `drain_filter` of `PartialCycleMap` (C134) with a closure that may panic. -/
set_option linter.unusedSectionVars false
namespace Verif.PartialMap
open PartialSpec OptionalPair
open CycleSpec (split)
open CycleMap (split_perm split_append ranU)
variable [RawImpl] [LawfulRaw] {L R : Type} [BEq L] [BEq R] [EquivBEq L] [EquivBEq R]
variable {m m' : PartialMap L R} {c : List (OptionalPair L R)} {σ : Type}

/-- the closure of a `drain_filter` without the repair that does the same (as `skipping`, with panics) -/
def skippingP (P : R → Bool) (f : σ → OptionalPair L R → Option Bool × σ) : σ → OptionalPair L R → Option Bool × σ
  | s, someRight r => if P r then (some false, s) else f s (someRight r)
  | s, e => f s e

omit [LawfulRaw] [EquivBEq L] [EquivBEq R] in
theorem nextLP_skipping (P : R → Bool) (f : σ → OptionalPair L R → Option Bool × σ) (kept todo : List (UInt64 × MappingPair L))
    (right : RawTable (MappingPair R)) (st : σ) :
    DrainFilter.nextLP (skippingP P f) kept todo right st = DrainFilter.nextLP f kept todo right st := by
  induction todo generalizing kept st with
  | nil => rfl
  | cons e rest ih => simp only [DrainFilter.nextLP, skippingP, ih]

/-- the first loop only takes right entries out -/
theorem nextLP_right {f : σ → OptionalPair L R → Option Bool × σ} {kept todo : List (UInt64 × MappingPair L)}
    {right : RawTable (MappingPair R)} {st : σ} {o k' t' r' s'}
    (h : DrainFilter.nextLP f kept todo right st = .ok (o, k', t', r', s')) : ∀ e ∈ r'.entries, e ∈ right.entries := by
  induction todo generalizing kept st with
  | nil => cases h; exact fun _ h => h
  | cons e rest ih =>
    simp only [DrainFilter.nextLP] at h
    split at h
    · split at h
      · cases h
      · rename_i hrem
        split at h
        · cases h; exact fun _ h => h
        · cases h
          unfold RawTable.removeEntry at hrem
          split at hrem
          · cases hrem
          · obtain ⟨e, -, he⟩ := Option.map_eq_some_iff.mp hrem
            cases he
            exact fun x hx => List.mem_of_mem_eraseIdx ((LawfulRaw.touch_perm _ _).mem_iff.1 hx)
        · exact ih h
    · split at h
      · cases h; exact fun _ h => h
      · cases h; exact fun _ h => h
      · exact ih h

theorem repair_nextRP {P : R → Bool} (f : σ → OptionalPair L R → Option Bool × σ) (kept : List (UInt64 × MappingPair R))
    {todo : List (UInt64 × MappingPair R)} (ht : ∀ e ∈ todo, e.2.hash.isSome = P e.2.value) (st : σ) :
    Repair.DrainFilter.nextRP f kept todo st = DrainFilter.nextRP (skippingP P f) kept todo st ∧
      ∀ e ∈ (DrainFilter.nextRP (skippingP P f) kept todo st).2.2.1, e ∈ todo := by
  induction todo generalizing kept st with
  | nil => exact ⟨rfl, fun _ h => h⟩
  | cons e rest ih =>
    have ih := fun k s => ih k (fun x hx => ht x (List.mem_cons_of_mem _ hx)) s
    have he := ht e (by simp)
    simp only [Repair.DrainFilter.nextRP, DrainFilter.nextRP, skippingP, he]
    cases P e.2.value with
    | true => exact ⟨(ih _ _).1, fun x hx => List.mem_cons_of_mem _ ((ih _ _).2 x hx)⟩
    | false =>
      simp only [Bool.false_eq_true, if_false]
      cases hf : f st (someRight e.2.value) with
      | mk b s =>
        match b with
        | none => exact ⟨rfl, fun x hx => List.mem_cons_of_mem _ hx⟩
        | some false => exact ⟨(ih _ _).1, fun x hx => List.mem_cons_of_mem _ ((ih _ _).2 x hx)⟩
        | some true => exact ⟨rfl, fun x hx => List.mem_cons_of_mem _ hx⟩

theorem repair_nextP {P : R → Bool} (f : σ → OptionalPair L R → Option Bool × σ) {it : DrainFilter σ L R} (ht : Tells P it) :
    Repair.DrainFilter.nextP f it = DrainFilter.nextP (skippingP P f) it ∧
      ∀ o it', DrainFilter.nextP (skippingP P f) it = .ok (o, it') → Tells P it' := by
  unfold Repair.DrainFilter.nextP DrainFilter.nextP
  rw [nextLP_skipping]
  cases hn : DrainFilter.nextLP f it.keptL it.todoL it.right it.st with
  | error e => exact ⟨rfl, fun _ _ h => by cases h⟩
  | ok v =>
    obtain ⟨o, k', t', r', s'⟩ := v
    have hr := nextLP_right hn
    have hr' : ∀ e ∈ r'.entries, e.2.hash.isSome = P e.2.value := fun e he => ht.1 e (hr e he)
    cases o with
    | item o => exact ⟨rfl, fun _ _ h => by cases h; exact ⟨hr', ht.2⟩⟩
    | panic => exact ⟨rfl, fun _ _ h => by cases h; exact ⟨hr', ht.2⟩⟩
    | done =>
      simp only [bind, Except.bind, pure, Except.pure]
      cases it.reset with
      | true =>
        obtain ⟨e1, e2⟩ := repair_nextRP f [] hr' s'
        simp only [if_true, e1, true_and]
        intro o it' h
        cases h
        exact ⟨hr', fun e he => hr' e (e2 e he)⟩
      | false =>
        obtain ⟨e1, e2⟩ := repair_nextRP f it.keptR ht.2 s'
        simp only [Bool.false_eq_true, if_false, e1, true_and]
        intro o it' h
        cases h
        exact ⟨hr', fun e he => ht.2 e (e2 e he)⟩

theorem repair_takeP {P : R → Bool} (f : σ → OptionalPair L R → Option Bool × σ) (n : Nat) {it : DrainFilter σ L R} (ht : Tells P it) :
    Repair.DrainFilter.takeP f n it = DrainFilter.takeP (skippingP P f) n it ∧
      ∀ ps b it', DrainFilter.takeP (skippingP P f) n it = .ok (ps, b, it') → Tells P it' := by
  induction n generalizing it with
  | zero => exact ⟨rfl, fun _ _ _ h => by cases h; exact ht⟩
  | succ n ih =>
    obtain ⟨e1, e2⟩ := repair_nextP f ht
    simp only [Repair.DrainFilter.takeP, DrainFilter.takeP, e1]
    cases hn : DrainFilter.nextP (skippingP P f) it with
    | error e => exact ⟨rfl, fun _ _ _ h => by cases h⟩
    | ok v =>
      obtain ⟨o, it1⟩ := v
      have h1 := e2 _ _ hn
      cases o with
      | done => exact ⟨rfl, fun _ _ _ h => by cases h; exact h1⟩
      | panic => exact ⟨rfl, fun _ _ _ h => by cases h; exact h1⟩
      | item o =>
        obtain ⟨a1, a2⟩ := ih h1
        simp only [bind, Except.bind, a1, pure, Except.pure, true_and]
        cases hk : DrainFilter.takeP (skippingP P f) n it1 with
        | error e => exact fun _ _ _ h => by cases h
        | ok v => exact fun _ _ _ h => by cases h; exact a2 _ _ _ hk

theorem repair_drainFilterP {P : R → Bool} (f : σ → OptionalPair L R → Option Bool × σ) (s : σ) (n : Nat)
    (ht : ∀ e ∈ m.right.entries, e.2.hash.isSome = P e.2.value) :
    Repair.drainFilterP m f s n = m.drainFilterP (skippingP P f) s n := by
  have h0 : Tells P (⟨[], m.left.entries, m.right, true, [], [], s⟩ : DrainFilter σ L R) := ⟨ht, by simp⟩
  obtain ⟨e1, e2⟩ := repair_takeP f n h0
  simp only [Repair.drainFilterP, drainFilterP, e1]
  cases hk : DrainFilter.takeP (skippingP P f) n ⟨[], m.left.entries, m.right, true, [], [], s⟩ with
  | error e => rfl
  | ok v => simp only [bind, Except.bind, (repair_takeP f _ (e2 _ _ _ hk)).1]

omit [RawImpl] [LawfulRaw] in
theorem panics_skip {α : Type} (g f : σ → α → Option Bool × σ) (P : α → Bool) {d : List α}
    (h1 : ∀ a ∈ d, P a = true → ∀ s, g s a = (some false, s)) (h2 : ∀ a ∈ d, P a = false → ∀ s, g s a = f s a) (s : σ) :
    panics g d s = panics f (d.filter fun a => !P a) s := by
  induction d generalizing s with
  | nil => rfl
  | cons a d ih =>
    have ih := fun s => ih (fun x hx => h1 x (List.mem_cons_of_mem _ hx)) (fun x hx => h2 x (List.mem_cons_of_mem _ hx)) s
    cases hP : P a with
    | true => simp [panics, h1 a (by simp) hP s, hP, ih]
    | false => simp [panics, h2 a (by simp) hP s, hP, ih]

omit [RawImpl] [LawfulRaw] in
theorem panics_congr {α : Type} {g f : σ → α → Option Bool × σ} {d : List α} (h : ∀ a ∈ d, ∀ s, g s a = f s a) (s : σ) :
    panics g d s = panics f d s := by
  induction d generalizing s with
  | nil => rfl
  | cons a d ih =>
    have ih := fun s => ih (fun x hx => h x (List.mem_cons_of_mem _ hx)) s
    simp only [panics, h a (by simp) s, ih]

omit [RawImpl] [LawfulRaw] in
theorem panics_append {α : Type} (f : σ → α → Option Bool × σ) (as bs : List α) (s : σ) :
    panics f (as ++ bs) s = panics f as s + panics f bs (split (calm f) as s).2.2 := by
  induction as generalizing s with
  | nil => simp [panics, split]
  | cons a as ih =>
    have : (split (calm f) (a :: as) s).2.2 = (split (calm f) as (f s a).2).2.2 := by
      simp only [split, calm]
      split <;> rename_i h <;> simp only [Prod.mk.injEq] at h <;> rw [h.2]
    simp only [List.cons_append, panics, ih, this]
    omega

theorem drainFilterP_repair (hr : Repr m c) (f : σ → OptionalPair L R → Option Bool × σ) (s : σ) (n : Nat) :
    ∃ (e : CycleMap.Ending) (v w ps : List (OptionalPair L R)) (m' : PartialMap L R), (v ++ w).Perm c ∧
      Repair.drainFilterP m f s n = .ok (e, ps, (split (calm f) v s).2.2, m') ∧
      ps <+: (split (calm f) v s).1 ∧ ps.length ≤ n ∧ Repr m' ((split (calm f) v s).2.1 ++ w) ∧ panicsOf e = panics f v s ∧
      (e = .returned → w = [] ∧ ps = (split (calm f) v s).1.take n) ∧ (e = .aborted → ps.length < n) ∧
      (e = .panicked → w ≠ [] → ps.length = n) := by
  have ho := hr.oneToOne
  rw [repair_drainFilterP f s n (pairedIn_tells hr ho)]
  obtain ⟨e, v1, w1, us, v2, w2, ps, m', g1, g2, g3, g4, g5, g6, g7, g8, g9, -, g11, g12, g13, g14, g15⟩ :=
    drainFilterP_refines hr (skippingP (pairedIn c) f) s n
      fun s l r hm => by simp [skippingP, pairedIn_mem ho hm (r := r) rfl, isPair]
  have hl1 : ∀ x ∈ v1, ∀ s, skippingP (pairedIn c) f s x = f s x := fun x hx s => by
    have := g2 x (List.mem_append_left _ hx)
    cases x <;> first | rfl | cases this
  have s1 : split (calm (skippingP (pairedIn c) f)) v1 s = split (calm f) v1 s :=
    split_congr' (fun x hx s => by simp only [calm, hl1 x hx]) _
  rw [panics_congr hl1] at g11
  rw [s1] at g4 g6 g7 g9 g11 g12
  have p1 := split_perm (calm f) v1 s
  have e1 := fun bs => split_append (calm f) v1 bs s
  have pa := fun bs => panics_append f v1 bs s
  generalize split (calm f) v1 s = q1 at *
  obtain ⟨a1, k1, t1⟩ := q1
  simp only at *
  have hk : ∀ x ∈ k1 ++ w1, (leftOf x).isSome = true := fun x hx => by
    rcases List.mem_append.1 hx with hx | hx
    · exact g2 x (List.mem_append_left _ (p1.mem_iff.2 (List.mem_append_right _ hx)))
    · exact g2 x (List.mem_append_right _ hx)
  have hm1 : ∀ x ∈ v1 ++ w1 ++ us, x ∈ c := fun x hx => g1.mem_iff.1 hx
  have husR : ∀ u ∈ us, (rightOf u).isSome = true ∧ isPair u = false := by
    intro u hu
    have hl := g3 u hu
    have hne : u ≠ neither := fun e => ho.2 (e ▸ hm1 u (List.mem_append_right _ hu))
    cases u <;> simp_all [leftOf, rightOf, isPair]
  obtain ⟨hlone, hpair⟩ := second_pass g4 g5 hk husR
  rw [List.filter_append] at hlone hpair
  have hm2 : ∀ x ∈ v2, x ∈ c := fun x hx => by
    rcases List.mem_append.1 (g4.mem_iff.1 (List.mem_append_left _ (List.mem_append_left _ hx))) with hm | hm
    · rcases List.mem_append.1 hm with hm | hm
      · exact hm1 x (List.mem_append_left _ (List.mem_append_left _ (p1.mem_iff.2 (List.mem_append_right _ hm))))
      · exact hm1 x (List.mem_append_left _ (List.mem_append_right _ hm))
    · exact hm1 x (List.mem_append_right _ hm)
  have hs1 : ∀ x ∈ v2, isPair x = true → ∀ s, skippingP (pairedIn c) f s (asRight x) = (some false, s) := fun x hx hp s => by
    cases x with
    | someBoth a b => simp only [asRight, skippingP, pairedIn_mem ho (hm2 _ hx) (r := b) rfl, hp, if_true]
    | _ => cases hp
  have hs2 : ∀ x ∈ v2, isPair x = false → ∀ s, skippingP (pairedIn c) f s (asRight x) = f s x := fun x hx hp s => by
    have h5' := g5 x (List.mem_append_left _ hx)
    cases x with
    | someRight b => simp only [asRight, skippingP, pairedIn_mem ho (hm2 _ hx) (r := b) rfl, hp, Bool.false_eq_true, if_false]
    | someBoth a b => cases hp
    | _ => cases h5'
  obtain ⟨u1, u2, u3⟩ := split_skip (calm fun s x => skippingP (pairedIn c) f s (asRight x)) (calm f) isPair (d := v2)
    (fun x hx hp s => by simp [calm, hs1 x hx hp]) (fun x hx hp s => by simp only [calm, hs2 x hx hp]) t1
  have u4 := panics_skip (fun s x => skippingP (pairedIn c) f s (asRight x)) f isPair hs1 hs2 t1
  have hmap : ((split (calm f) (v2.filter fun e => !isPair e) t1).1.map asRight) = (split (calm f) (v2.filter fun e => !isPair e) t1).1 := by
    rw [List.map_congr_left (g := id), List.map_id]
    intro x hx
    have := (List.mem_filter.1 ((split_perm _ _ _).mem_iff.2 (List.mem_append_left _ hx)))
    have h5' := g5 x (List.mem_append_left _ this.1)
    cases x <;> simp_all [asRight, isPair, rightOf]
  rw [u1, hmap] at g7 g12
  rw [u3] at g6
  rw [u4] at g11
  have e1 := e1 (v2.filter fun e => !isPair e)
  have pa := pa (v2.filter fun e => !isPair e)
  refine ⟨e, v1 ++ v2.filter fun e => !isPair e, w1 ++ w2.filter fun e => !isPair e, ps, m', ?_, ?_, ?_, g8, ?_, ?_, ?_, g14, ?_⟩
  · refine .trans ?_ (((hlone.append_left (v1 ++ w1))).trans g1)
    simp only [List.append_assoc]
    refine .append_left _ ?_
    simp only [← List.append_assoc]
    exact .append_right _ List.perm_append_comm
  · rw [e1]; exact g6
  · rw [e1]; exact g7
  · rw [e1]
    refine g9.perm ?_
    refine ((u2.append_right _).append_right _).trans ?_
    have hw2 : (w2.filter isPair ++ w2.filter fun e => !isPair e).Perm w2 := List.filter_append_perm isPair w2
    have hkk : ((k1 ++ w1).filter (fun e => (rightOf e).isSome) ++ (k1 ++ w1).filter fun e => (rightOf e).isNone).Perm (k1 ++ w1) := by
      have := List.filter_append_perm (fun e => (rightOf e).isSome) (k1 ++ w1)
      refine .trans (.of_eq ?_) this
      congr 2
      funext e
      cases rightOf e <;> rfl
    have h3 := ((hpair.append_right _).trans hkk)
    have h4 : (v2.filter isPair ++ w2 ++ (k1 ++ w1).filter fun e => (rightOf e).isNone).Perm (k1 ++ w1 ++ w2.filter fun e => !isPair e) := by
      refine (((hw2.symm.append_left _).append_right _)).trans ?_
      refine .trans ?_ (h3.append_right _)
      simp only [List.append_assoc]
      exact .append_left _ (.append_left _ List.perm_append_comm)
    simp only [List.append_assoc] at h4 ⊢
    refine (h4.append_left _).trans ?_
    simp only [← List.append_assoc]
    refine .append_right _ (.append_right _ ?_)
    exact List.perm_append_comm
  · rw [pa]; exact g11
  · intro he
    obtain ⟨q1, q2, q3⟩ := g12 he
    subst q1 q2
    rw [e1]
    exact ⟨rfl, q3⟩
  · intro he hw
    refine g15 he ?_
    by_cases hw1 : w1 = []
    · subst hw1
      exact .inr fun h => hw (by rw [h]; rfl)
    · exact .inl hw1

/-- a closure that notes down, in its state, what it is asked about -/
def noting (f : σ → OptionalPair L R → Option Bool × σ) (s : List (OptionalPair L R) × σ) (x : OptionalPair L R) :
    Option Bool × List (OptionalPair L R) × σ := ((f s.2 x).1, s.1 ++ [x], (f s.2 x).2)

omit [RawImpl] [LawfulRaw] [BEq L] [BEq R] [EquivBEq L] [EquivBEq R] in
theorem split_noting (f : σ → OptionalPair L R → Option Bool × σ) (d log : List (OptionalPair L R)) (s : σ) :
    split (calm (noting f)) d (log, s) =
      ((split (calm f) d s).1, (split (calm f) d s).2.1, (log ++ d, (split (calm f) d s).2.2)) := by
  induction d generalizing log s with
  | nil => simp [split]
  | cons x d ih =>
    have := ih (log ++ [x]) (f s x).2
    simp only [split, calm, noting] at this ⊢
    cases hf : f s x with
    | mk b s' => rw [hf] at this; match b with
      | none => simp [this]
      | some false => simp [this]
      | some true => simp [this]

omit [RawImpl] [LawfulRaw] [BEq L] [BEq R] [EquivBEq L] [EquivBEq R] in
theorem panics_noting (f : σ → OptionalPair L R → Option Bool × σ) (d log : List (OptionalPair L R)) (s : σ) :
    panics (noting f) d (log, s) = panics f d s := by
  induction d generalizing log s with
  | nil => rfl
  | cons x d ih => simp only [panics, noting, ih]; rfl

/-- The maps that histories of repaired calls produce, as in C154, where the closure of `drain_filter` may panic, too.  (A second panic
of that closure, while the first one unwinds, ends the process.) -/
inductive Survived : PartialMap L R → Prop
  | new (n : Nat) (hb : BuildHasher L R) : Survived (withCapacityAndHasher n hb)
  | returned {m m' : PartialMap L R} {call : Sturdy.Call L R} {f f' : Fate} {o : Out L R} : Survived m →
      (∀ cl cr, call = .plain (.clone cl cr) → (∀ x, (cl x == x) = true) ∧ (∀ x, (cr x == x) = true)) →
      Sturdy.callU call f m = .done o f' m' → Survived m'
  | panicked {m m' : PartialMap L R} {call : Sturdy.Call L R} {f : Fate} {why : Option Panic} : Survived m →
      Sturdy.callU call f m = .panic why m' → Survived m'
  | drained {m m' : PartialMap L R} {σ : Type} {f : σ → OptionalPair L R → Option Bool × σ} {s s' : σ} {n : Nat} {e : CycleMap.Ending}
      {ps : List (OptionalPair L R)} : Survived m → Repair.drainFilterP m f s n = .ok (e, ps, s', m') → e ≠ .aborted → Survived m'

theorem Survived.repr (h : Survived m) : ∃ c, Repr m c := by
  induction h with
  | new n hb => exact ⟨_, withCapacity_repr n hb⟩
  | @returned m m' call f f' o _ hcl e ih =>
    obtain ⟨c, h⟩ := ih
    obtain ⟨o1, f1, m1, e1, h1⟩ := h.returns call f (by rw [e]; rfl)
    rw [e] at e1; cases e1
    exact h1 hcl
  | @panicked m m' call f why _ e ih =>
    obtain ⟨c, h⟩ := ih
    cases why with
    | none => obtain ⟨d, -, h1⟩ := h.interrupted call f e; exact ⟨d, h1⟩
    | some p =>
      obtain ⟨o1, f1, m1, e1, -⟩ := h.returns call f (by rw [e]; rfl)
      rw [e] at e1; cases e1
  | @drained m m' σ f s s' n e ps _ hd _ ih =>
    obtain ⟨c, h⟩ := ih
    obtain ⟨e1, v, w, ps1, m1, -, h2, -, -, h5, -⟩ := drainFilterP_repair h f s n
    rw [hd] at h2; cases h2
    exact ⟨_, h5⟩

/-- the contents of such a map are what it shows -/
theorem Survived.repr_of_shows (h : Survived m) (hs : Shows m c) : Repr m c := by
  obtain ⟨d, hd⟩ := h.repr
  obtain ⟨ps, e, hp⟩ := hs.iterPaired
  obtain ⟨qs, e', hq⟩ := iterPairedList_refines hd
  rw [e] at e'; cases e'
  have h1 : (d.filterMap pairOf).Perm (c.filterMap pairOf) := hq.symm.trans hp
  have h2 : (d.filter fun e => !isPair e).Perm (c.filter fun e => !isPair e) :=
    (iterUnpairedList_refines hd).symm.trans hs.iterUnpaired
  exact hd.perm ((pairs_lones_perm d).symm.trans (((h1.map _).append h2).trans (pairs_lones_perm c)))

/-- C155: the repaired `drain_filter`, dropped after at most `n` items, with a closure that may panic at any call (it notes down what it is
asked about).  The crate's own code does not panic.  The closure is asked about the entries `v`, each as it is and once; they are all entries
but `w`.  What it accepted is gone and everything else is there: what it rejected, what it panicked at, and what it was not asked about.  The
map goes on doing what is documented.  The call returns, panics or aborts the process as the closure panicked 0, 1 or 2 times; entries are
left out only after a second panic, or after one that comes when the `n` items have been yielded. -/
theorem C155_drain_filter (h : Survived m) (hc : Shows m c) (f : σ → OptionalPair L R → Option Bool × σ) (s : σ) (n : Nat) :
    ∃ (e : CycleMap.Ending) (v w accepted others yielded : List (OptionalPair L R)) (s' : σ) (m' : PartialMap L R),
      (v ++ w).Perm c ∧ split (calm f) v s = (accepted, others, s') ∧
      Repair.drainFilterP m (noting f) ([], s) n = .ok (e, yielded, (v, s'), m') ∧
      yielded <+: accepted ∧ yielded.length ≤ n ∧ Serves m' (others ++ w) ∧
      panics f v s = (match e with | .returned => 0 | .panicked => 1 | .aborted => 2) ∧
      (e = .returned → w = [] ∧ yielded = accepted.take n) ∧ (e = .aborted → yielded.length < n) ∧
      (e = .panicked → w ≠ [] → yielded.length = n) := by
  obtain ⟨e, v, w, ps, m', g1, g2, g3, g4, g5, g6, g7, g8, g9⟩ := drainFilterP_repair (h.repr_of_shows hc) (noting f) ([], s) n
  rw [split_noting] at g2 g3 g5 g7
  rw [panics_noting] at g6
  exact ⟨e, v, w, _, _, ps, _, m', g1, rfl, g2, g3, g4, g5.serves, by rw [← g6]; cases e <;> rfl, g7, g8, g9⟩

/-- C155: whatever has panicked, and however often, such a map is a one-to-one map that does what is documented. -/
theorem C155_serves (h : Survived m) : ∃ c, Serves m c := by
  obtain ⟨c, hc⟩ := h.repr
  exact ⟨c, hc.serves⟩

omit [LawfulRaw] [EquivBEq L] [EquivBEq R] in
theorem nextLP_sure (f : σ → OptionalPair L R → Bool × σ) (kept todo : List (UInt64 × MappingPair L))
    (right : RawTable (MappingPair R)) (st : σ) :
    DrainFilter.nextLP (sure f) kept todo right st =
      (DrainFilter.nextL f kept todo right st).map fun x => ((match x.1 with | none => .done | some p => .item p), x.2) := by
  induction todo generalizing kept st with
  | nil => rfl
  | cons e rest ih =>
    simp only [DrainFilter.nextLP, DrainFilter.nextL, sure]
    cases e.2.hash with
    | none =>
      simp only
      cases hf : f st (someLeft e.2.value) with
      | mk b s' => cases b <;> simp [Except.map, ih]
    | some hash =>
      simp only
      cases right.removeEntry hash (justId e.2.id) with
      | none => rfl
      | some x =>
        simp only
        cases hf : f st (someBoth e.2.value x.1.value) with
        | mk b s' => cases b <;> simp [Except.map, ih]

omit [LawfulRaw] [EquivBEq L] [EquivBEq R] in
theorem repair_nextRP_sure (f : σ → OptionalPair L R → Bool × σ) (kept todo : List (UInt64 × MappingPair R)) (st : σ) :
    Repair.DrainFilter.nextRP (sure f) kept todo st =
      ((match (Repair.DrainFilter.nextR f kept todo st).1 with | none => .done | some p => .item p),
        (Repair.DrainFilter.nextR f kept todo st).2) := by
  induction todo generalizing kept st with
  | nil => rfl
  | cons e rest ih =>
    simp only [Repair.DrainFilter.nextRP, Repair.DrainFilter.nextR, sure]
    split
    · exact ih _ _
    · cases hf : f st (someRight e.2.value) with
      | mk b s' => cases b <;> simp [ih]

omit [LawfulRaw] [EquivBEq L] [EquivBEq R] in
/-- C155: with a closure that does not panic, the iterator is that of C134. -/
theorem C155_agrees (f : σ → OptionalPair L R → Bool × σ) (n : Nat) (it : DrainFilter σ L R) :
    Repair.DrainFilter.takeP (sure f) n it = (Repair.DrainFilter.take f n it).map fun x => (x.1, false, x.2) := by
  have hn : ∀ it : DrainFilter σ L R, Repair.DrainFilter.nextP (sure f) it =
      (Repair.DrainFilter.next f it).map fun x => ((match x.1 with | none => .done | some p => .item p), x.2) := by
    intro it
    simp only [Repair.DrainFilter.nextP, Repair.DrainFilter.next, nextLP_sure]
    cases DrainFilter.nextL f it.keptL it.todoL it.right it.st with
    | error e => rfl
    | ok x =>
      obtain ⟨o, k, t, r, s⟩ := x
      cases o with
      | some p => rfl
      | none => simp only [bind, Except.bind, Except.map, pure, Except.pure, repair_nextRP_sure]
  induction n generalizing it with
  | zero => rfl
  | succ n ih =>
    simp only [Repair.DrainFilter.takeP, Repair.DrainFilter.take, hn]
    cases Repair.DrainFilter.next f it with
    | error e => rfl
    | ok x =>
      obtain ⟨o, it1⟩ := x
      cases o with
      | none => rfl
      | some p =>
        simp only [bind, Except.bind, Except.map, ih]
        cases Repair.DrainFilter.take f n it1 <;> rfl

theorem Lived.survived (h : Lived m) : Survived m := by
  induction h with
  | new n hb => exact .new n hb
  | returned _ hcl e ih => exact .returned ih hcl e
  | panicked _ e ih => exact .panicked ih e

/-- a closure that accepts what has no left item and panics at the pair `(2, 20)` -/
def Sturdy.Demo.shy (_ : Unit) (x : OptionalPair Nat Nat) : Option Bool × Unit :=
  (match x with | someBoth 2 _ => none | x => some (leftOf x).isNone, ())

omit [RawImpl] [LawfulRaw] in
/-- `drain_filter` panics at `(2, 20)`; while the panic unwinds, the lone `30` is removed, and no pair is torn apart -/
example : letI := swissRaw 4
    ∃ m m' : PartialMap Nat Nat, Survived m ∧ m.lenLeft = 2 ∧ m.lenRight = 3 ∧
      Repair.drainFilterP m Sturdy.Demo.shy () 9 = .ok (.panicked, [], (), m') ∧ Survived m' ∧
      m'.getRight 1 = some 10 ∧ m'.getRight 2 = some 20 ∧ m'.containsRight 30 = false ∧ m'.lenRight = 2 := by
  let _ := swissRaw 4; have := swissRaw_lawful 4
  let calls : List (Fate × Sturdy.Call Nat Nat) :=
    [(⟨99, none⟩, .plain (.insert 1 10)), (⟨99, none⟩, .plain (.insert 2 20)), (⟨99, none⟩, .plain (.insertRight 30))]
  obtain ⟨m, e, h⟩ := ranU (e := Sturdy.runU (withCapacityAndHasher 0 spreadHash) calls)
    (p := fun m => decide (m.lenLeft = 2 ∧ m.lenRight = 3) && match Repair.drainFilterP m Sturdy.Demo.shy () 9 with
      | .ok (.panicked, [], (), m') =>
        decide (m'.getRight 1 = some 10 ∧ m'.getRight 2 = some 20 ∧ m'.containsRight 30 = false ∧ m'.lenRight = 2)
      | _ => false) (by decide +kernel)
  obtain ⟨m1, c, e1, hl, -⟩ := C154_history (.new 0 spreadHash) calls (by simp [calls])
  rw [e] at e1; cases e1
  rw [Bool.and_eq_true, decide_eq_true_eq] at h
  obtain ⟨h1, h2⟩ := h
  split at h2
  · rename_i m' hd
    exact ⟨m, m', hl.survived, h1.1, h1.2, hd, .drained hl.survived hd (by simp), of_decide_eq_true h2⟩
  · cases h2

end Verif.PartialMap
