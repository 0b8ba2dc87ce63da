import Verif.Props.CycleDemo
import Verif.Props.PartialDemo
import Verif.CycleMap.Simulation
import Verif.PartialMap.Simulation
/-!
Property C129: `CycleMap` and `PartialCycleMap` agree as long as only pairs are put in.

A `PartialCycleMap` that holds pairs only and a `CycleMap` with the same pairs answer the calls both types have in the
same way, and then hold the same pairs again.  The two implementations are separate (partner hashes and ids are
`Option`s in one of them), so this is a statement about two programs, and their tables and hash functions may differ.
-/
set_option linter.unusedSectionVars false
set_option linter.unusedSimpArgs false

namespace Verif.Twin
open OptionalPair

/-- The calls that `CycleMap` and `PartialCycleMap` share.  Left out: `drain` and `drain_filter` (C21, C53, C54), the
`swap_*_or_insert` calls (`C129_swapLeftOrInsert` and `C129_swapRightOrInsert` below), `len` and the capacity calls,
which differ in their signatures. -/
inductive Call (L R : Type) where
  | insert (l : L) (r : R)
  | remove (l : L) (r : R)
  | removeViaLeft (l : L)
  | removeViaRight (r : R)
  | swapLeft (old new : L)
  | swapLeftChecked (old : L) (expected : R) (new : L)
  | swapRight (old new : R)
  | swapRightChecked (old : R) (expected : L) (new : R)
  | getLeft (r : R)
  | getRight (l : L)
  | containsLeft (l : L)
  | containsRight (r : R)
  | arePaired (l : L) (r : R)
  | isEmpty
  | clear
  | iter
  | iterLeft
  | iterRight
  | extend (xs : List (L × R))
  | shrinkToFit
  /-- keep the pairs for which `keep` is true -/
  | keep (keep : L → R → Bool)

/-- the call on a `CycleMap` -/
def Call.cycle {L R : Type} : Call L R → CycleMap.Op L R
  | insert l r => .insert l r
  | remove l r => .remove l r
  | removeViaLeft l => .removeViaLeft l
  | removeViaRight r => .removeViaRight r
  | swapLeft old new => .swapLeft old new
  | swapLeftChecked old e new => .swapLeftChecked old e new
  | swapRight old new => .swapRight old new
  | swapRightChecked old e new => .swapRightChecked old e new
  | getLeft r => .getLeft r
  | getRight l => .getRight l
  | containsLeft l => .containsLeft l
  | containsRight r => .containsRight r
  | arePaired l r => .arePaired l r
  | isEmpty => .isEmpty
  | clear => .clear
  | iter => .iter
  | iterLeft => .iterLeft
  | iterRight => .iterRight
  | extend xs => .extend xs
  | shrinkToFit => .shrinkToFit
  | keep k => .retain Unit (fun u l r => (k l r, u)) ()

/-- the call on a `PartialCycleMap`; its `retain_paired` removes what the closure accepts (C55), so `keep` negates -/
def Call.part {L R : Type} : Call L R → PartialMap.Op L R
  | insert l r => .insert l r
  | remove l r => .remove l r
  | removeViaLeft l => .removeViaLeft l
  | removeViaRight r => .removeViaRight r
  | swapLeft old new => .swapLeft old new
  | swapLeftChecked old e new => .swapLeftChecked old e new
  | swapRight old new => .swapRight old new
  | swapRightChecked old e new => .swapRightChecked old e new
  | getLeft r => .getLeft r
  | getRight l => .getRight l
  | containsLeft l => .containsLeft l
  | containsRight r => .containsRight r
  | arePaired l r => .arePaired l r
  | isEmpty => .isEmpty
  | clear => .clear
  | iter => .iter
  | iterLeft => .iterLeft
  | iterRight => .iterRight
  | extend xs => .extendPairs xs
  | shrinkToFit => .shrinkToFit
  | keep k => .retainPaired Unit (fun u l r => (!k l r, u)) ()

/-- a pair as an entry -/
def both {L R : Type} (p : L × R) : OptionalPair L R := someBoth p.1 p.2

/-- an optional pair as an entry -/
def entry {L R : Type} : Option (L × R) → OptionalPair L R
  | some p => both p
  | none => neither

/-- The two results say the same.  Sequences may differ in their order. -/
def Same {L R : Type} : CycleMap.Out L R → PartialMap.Out L R → Prop
  | .unit, .unit => True
  | .bool a, .bool b => a = b
  | .left a, .left b => a = b
  | .right a, .right b => a = b
  | .pair a, .pair b => a = b
  | .pair a, .entry e => e = entry a
  | .inserted o, .twoEntries e => e = (entry o.toPair.1, entry o.toPair.2)
  | .swappedLeft o, .swappedLeft o' => o' = o.mapRight both
  | .swappedRight o, .swappedRight o' => o' = o.mapRight both
  | .lefts a, .lefts b => b.Perm a
  | .rights a, .rights b => b.Perm a
  | .pairs a, .entries b => b.Perm (a.map both)
  | _, _ => False

/-- All results say the same. -/
def Sames {L R : Type} : List (CycleMap.Out L R) → List (PartialMap.Out L R) → Prop
  | [], [] => True
  | o :: os, o' :: os' => Same o o' ∧ Sames os os'
  | _, _ => False

variable [RawImpl] [LawfulRaw] {L R : Type} [BEq L] [BEq R] [EquivBEq L] [EquivBEq R]
variable {m : CycleMap L R} {p : PartialMap L R} {c : List (L × R)}

/-- The two maps are valid and hold the same pairs, `p` holding nothing else. -/
structure Twins (m : CycleMap L R) (p : PartialMap L R) : Prop where
  cycle : CycleMap.Reachable m
  part : PartialMap.Reachable p
  same : ∃ c : List (L × R), m.Shows c ∧ p.Shows (c.map both)

/-! The list specifications on pairs. -/

@[simp] theorem hasL_both (l : L) (q : L × R) : PartialSpec.hasL l (both q) = (l == q.1) := rfl
@[simp] theorem hasR_both (r : R) (q : L × R) : PartialSpec.hasR r (both q) = (r == q.2) := rfl
@[simp] theorem leftOf_both (q : L × R) : PartialSpec.leftOf (both q) = some q.1 := rfl
@[simp] theorem rightOf_both (q : L × R) : PartialSpec.rightOf (both q) = some q.2 := rfl
@[simp] theorem pairOf_both (q : L × R) : PartialSpec.pairOf (both q) = some q := rfl
@[simp] theorem isPair_both (q : L × R) : PartialSpec.isPair (both q) = true := rfl

theorem findL_both (c : List (L × R)) (l : L) : PartialSpec.findL (c.map both) l = (CycleSpec.findL c l).map both := by
  simp only [PartialSpec.findL, CycleSpec.findL, List.find?_map]; rfl

theorem findR_both (c : List (L × R)) (r : R) : PartialSpec.findR (c.map both) r = (CycleSpec.findR c r).map both := by
  simp only [PartialSpec.findR, CycleSpec.findR, List.find?_map]; rfl

theorem eraseL_both (c : List (L × R)) (l : L) : PartialSpec.eraseL (c.map both) l = (CycleSpec.eraseL c l).map both := by
  simp only [PartialSpec.eraseL, CycleSpec.eraseL, List.filter_map]; rfl

theorem eraseR_both (c : List (L × R)) (r : R) : PartialSpec.eraseR (c.map both) r = (CycleSpec.eraseR c r).map both := by
  simp only [PartialSpec.eraseR, CycleSpec.eraseR, List.filter_map]; rfl

theorem others_both (c : List (L × R)) (l : L) (r : R) :
    PartialSpec.others (c.map both) l r = (c.filter fun q => !(l == q.1) && !(r == q.2)).map both := by
  simp only [PartialSpec.others, List.filter_map]; rfl

theorem hasPair_both (c : List (L × R)) (l : L) (r : R) : PartialSpec.hasPair (c.map both) l r = CycleSpec.hasPair c l r := by
  simp only [PartialSpec.hasPair, CycleSpec.hasPair, List.any_map]; rfl

theorem getD_both (o : Option (L × R)) : (o.map both).getD neither = entry o := by cases o <;> rfl

theorem toPair_ofPair {A B : Type} (q : Option A × Option B) : (ofPair q).toPair = q := by
  rcases q with ⟨_ | _, _ | _⟩ <;> rfl

theorem mapRight_ofPair {A B C : Type} (f : B → C) (a : Option A) (b : Option B) :
    (ofPair (a, b)).mapRight f = ofPair (a, b.map f) := by cases a <;> cases b <;> rfl

theorem insert_both (c : List (L × R)) (l : L) (r : R) :
    PartialSpec.insert (c.map both) l r = ((entry (CycleSpec.insert c l r).1.toPair.1, entry (CycleSpec.insert c l r).1.toPair.2),
      (CycleSpec.insert c l r).2.map both) := by
  simp only [PartialSpec.insert, CycleSpec.insert, findL_both, findR_both, hasPair_both, getD_both, others_both, toPair_ofPair,
    List.map_cons, both]
  congr 2
  split <;> rfl

theorem insertAll_both (xs : List (L × R)) : ∀ c : List (L × R),
    PartialSpec.insertAll (c.map both) (xs.map both) = (CycleSpec.insertAll c xs).map both := by
  induction xs with
  | nil => intro c; rfl
  | cons x xs ih =>
    intro c
    have : PartialSpec.insertEntry (c.map both) (both x) = (CycleSpec.insert c x.1 x.2).2.map both := by
      simp only [both, PartialSpec.insertEntry]; exact congrArg Prod.snd (insert_both c x.1 x.2)
    simp only [PartialSpec.insertAll, CycleSpec.insertAll, List.map_cons, List.foldl_cons, this]
    exact ih _

theorem swapLeft_both (c : List (L × R)) (old new : L) :
    PartialSpec.swapLeft (c.map both) old new = ((CycleSpec.swapLeft c old new).1.mapRight both, (CycleSpec.swapLeft c old new).2.map both) := by
  simp only [PartialSpec.swapLeft, CycleSpec.swapLeft, findL_both]
  cases CycleSpec.findL c old with
  | none => simp [eraseL_both, mapRight]
  | some q =>
    simp only [Option.map_some, mapRight_ofPair, leftOf_both, List.filter_map, List.map_cons]
    congr 2
    split <;> rfl

theorem swapRight_both (c : List (L × R)) (old new : R) :
    PartialSpec.swapRight (c.map both) old new = ((CycleSpec.swapRight c old new).1.mapRight both, (CycleSpec.swapRight c old new).2.map both) := by
  simp only [PartialSpec.swapRight, CycleSpec.swapRight, findR_both]
  cases CycleSpec.findR c old with
  | none => simp [eraseR_both, mapRight]
  | some q =>
    simp only [Option.map_some, mapRight_ofPair, rightOf_both, List.filter_map, List.map_cons]
    congr 2
    split <;> rfl

theorem filterMap_some_both {α β γ : Type} (f : α → β) (g : β → Option γ) (h : α → γ) (hh : ∀ a, g (f a) = some (h a)) (c : List α) :
    (c.map f).filterMap g = c.map h := by
  induction c with
  | nil => rfl
  | cons a c ih => simp [hh, ih]

theorem split_unit {α : Type} (k : α → Bool) : ∀ d : List α,
    CycleSpec.split (fun (u : Unit) a => (k a, u)) d () = (d.filter k, d.filter (fun a => !k a), ())
  | [] => rfl
  | a :: d => by
    simp only [CycleSpec.split, split_unit k d, List.filter_cons]
    cases k a <;> rfl

theorem filter_left_both (c : List (L × R)) : (c.map both).filter (fun e => (PartialSpec.leftOf e).isSome) = c.map both := by
  rw [List.filter_eq_self]; intro e he
  obtain ⟨q, -, rfl⟩ := List.mem_map.1 he; rfl

theorem filter_lone_both (c : List (L × R)) : (c.map both).filter (fun e => !PartialSpec.isPair e) = [] := by
  rw [List.filter_eq_nil_iff]; intro e he
  obtain ⟨q, -, rfl⟩ := List.mem_map.1 he; simp

/-- One call on lists: results that say the same, and the same pairs up to order. -/
theorem step_both {call : Call L R} {o : CycleMap.Out L R} {o' : PartialMap.Out L R} {c' : List (L × R)} {e' : List (OptionalPair L R)}
    (h1 : CycleMap.Step c call.cycle o c') (h2 : PartialMap.Step (c.map both) call.part o' e') :
    Same o o' ∧ e'.Perm (c'.map both) := by
  cases call with
  | insert l r =>
    obtain ⟨rfl, rfl⟩ := h1; obtain ⟨rfl, rfl⟩ := h2
    rw [insert_both]; exact ⟨rfl, .refl _⟩
  | remove l r =>
    obtain ⟨rfl, rfl⟩ := h1; obtain ⟨rfl, rfl⟩ := h2
    simp only [PartialSpec.remove, hasPair_both, findL_both, eraseL_both]
    split
    · refine ⟨?_, .refl _⟩
      show _ = _
      cases CycleSpec.findL c l <;> rfl
    · exact ⟨rfl, .refl _⟩
  | removeViaLeft l =>
    obtain ⟨rfl, rfl⟩ := h1; obtain ⟨rfl, rfl⟩ := h2
    rw [findL_both, eraseL_both, getD_both]; exact ⟨rfl, .refl _⟩
  | removeViaRight r =>
    obtain ⟨rfl, rfl⟩ := h1; obtain ⟨rfl, rfl⟩ := h2
    rw [findR_both, eraseR_both, getD_both]; exact ⟨rfl, .refl _⟩
  | swapLeft old new =>
    obtain ⟨rfl, rfl⟩ := h1; obtain ⟨rfl, rfl⟩ := h2
    rw [swapLeft_both]; exact ⟨rfl, .refl _⟩
  | swapLeftChecked old e new =>
    simp only [Call.cycle, Call.part, CycleMap.Step, PartialMap.Step, hasPair_both] at h1 h2
    split at h1
    · rename_i hh
      rw [if_pos hh] at h2
      obtain ⟨rfl, rfl⟩ := h1; obtain ⟨rfl, rfl⟩ := h2
      rw [swapLeft_both]; exact ⟨rfl, .refl _⟩
    · rename_i hh
      rw [if_neg hh] at h2
      obtain ⟨rfl, rfl⟩ := h1; obtain ⟨rfl, rfl⟩ := h2
      exact ⟨rfl, .refl _⟩
  | swapRight old new =>
    obtain ⟨rfl, rfl⟩ := h1; obtain ⟨rfl, rfl⟩ := h2
    rw [swapRight_both]; exact ⟨rfl, .refl _⟩
  | swapRightChecked old e new =>
    simp only [Call.cycle, Call.part, CycleMap.Step, PartialMap.Step, hasPair_both] at h1 h2
    split at h1
    · rename_i hh
      rw [if_pos hh] at h2
      obtain ⟨rfl, rfl⟩ := h1; obtain ⟨rfl, rfl⟩ := h2
      rw [swapRight_both]; exact ⟨rfl, .refl _⟩
    · rename_i hh
      rw [if_neg hh] at h2
      obtain ⟨rfl, rfl⟩ := h1; obtain ⟨rfl, rfl⟩ := h2
      exact ⟨rfl, .refl _⟩
  | getLeft r =>
    obtain ⟨rfl, rfl⟩ := h1; obtain ⟨rfl, rfl⟩ := h2
    rw [findR_both]
    refine ⟨?_, .refl _⟩
    show _ = _
    cases CycleSpec.findR c' r <;> rfl
  | getRight l =>
    obtain ⟨rfl, rfl⟩ := h1; obtain ⟨rfl, rfl⟩ := h2
    rw [findL_both]
    refine ⟨?_, .refl _⟩
    show _ = _
    cases CycleSpec.findL c' l <;> rfl
  | containsLeft l =>
    obtain ⟨rfl, rfl⟩ := h1; obtain ⟨rfl, rfl⟩ := h2
    refine ⟨?_, .refl _⟩
    show _ = _
    rw [List.any_map]; rfl
  | containsRight r =>
    obtain ⟨rfl, rfl⟩ := h1; obtain ⟨rfl, rfl⟩ := h2
    refine ⟨?_, .refl _⟩
    show _ = _
    rw [List.any_map]; rfl
  | arePaired l r =>
    obtain ⟨rfl, rfl⟩ := h1; obtain ⟨rfl, rfl⟩ := h2
    rw [hasPair_both]; exact ⟨rfl, .refl _⟩
  | isEmpty =>
    obtain ⟨rfl, rfl⟩ := h1; obtain ⟨rfl, rfl⟩ := h2
    refine ⟨?_, .refl _⟩
    show _ = _
    simp
  | clear =>
    obtain ⟨rfl, rfl⟩ := h1; obtain ⟨rfl, rfl⟩ := h2
    exact ⟨trivial, .refl _⟩
  | iter =>
    obtain ⟨d, hd, rfl, rfl⟩ := h1; obtain ⟨d', hd', rfl, rfl⟩ := h2
    refine ⟨hd'.trans ?_, .refl _⟩
    rw [filter_left_both]
    exact (hd.map both).symm
  | iterLeft =>
    obtain ⟨d, hd, rfl, rfl⟩ := h1; obtain ⟨d', hd', rfl, rfl⟩ := h2
    refine ⟨hd'.trans ?_, .refl _⟩
    rw [filterMap_some_both _ _ _ leftOf_both]; exact hd.symm
  | iterRight =>
    obtain ⟨d, hd, rfl, rfl⟩ := h1; obtain ⟨d', hd', rfl, rfl⟩ := h2
    refine ⟨hd'.trans ?_, .refl _⟩
    rw [filterMap_some_both _ _ _ rightOf_both]; exact hd.symm
  | extend xs =>
    obtain ⟨rfl, rfl⟩ := h1; obtain ⟨rfl, rfl⟩ := h2
    refine ⟨trivial, ?_⟩
    rw [← insertAll_both]; exact .refl _
  | shrinkToFit =>
    obtain ⟨rfl, rfl⟩ := h1; obtain ⟨rfl, rfl⟩ := h2
    exact ⟨trivial, .refl _⟩
  | keep k =>
    obtain ⟨d, hd, rfl, rfl⟩ := h1; obtain ⟨d', hd', rfl, rfl⟩ := h2
    refine ⟨trivial, ?_⟩
    rw [split_unit (fun q : L × R => k q.1 q.2), split_unit (fun q : L × R => !k q.1 q.2)]
    rw [filterMap_some_both _ _ id pairOf_both, List.map_id] at hd'
    rw [filter_lone_both, List.append_nil]
    simp only [Bool.not_not]
    exact (((hd'.filter _).trans (hd.filter _).symm).map both)

/-- C129: on twins a call that both types have succeeds, the results say the same, and the maps are twins afterwards. -/
theorem C129_call (h : Twins m p) (call : Call L R) : ∃ o m' o' p',
    m.exec call.cycle = .ok (o, m') ∧ p.exec call.part = .ok (o', p') ∧ Same o o' ∧ Twins m' p' := by
  obtain ⟨c, hm, hp⟩ := h.same
  obtain ⟨o, m', c', e1, s1, r1⟩ := CycleMap.exec_simulates (h.cycle.repr_of_shows hm) (op := call.cycle) (by cases call <;> trivial)
  obtain ⟨o', p', c'', e2, s2, r2, -⟩ := PartialMap.exec_simulates (h.part.repr_of_shows hp) (op := call.part) (by cases call <;> trivial)
  obtain ⟨ho, hc⟩ := step_both s1 s2
  refine ⟨o, m', o', p', e1, e2, ho, ?_, ?_, c', r1.shows, (r2.perm hc).shows⟩
  · exact h.cycle.step (by cases call <;> (intro n hn; cases hn)) (by cases call <;> (intro a b hn; cases hn)) e1
  · exact h.part.step (by cases call <;> (intro a b hn; cases hn)) (by cases call <;> (intro a b c d hn; cases hn))
      (by cases call <;> (intro a b hn; cases hn)) e2

/-- C129, histories: twins remain twins over any number of calls, and all results say the same. -/
theorem C129_history (calls : List (Call L R)) : ∀ {m : CycleMap L R} {p : PartialMap L R}, Twins m p → ∃ os m' os' p',
    m.run (calls.map Call.cycle) = .ok (os, m') ∧ p.run (calls.map Call.part) = .ok (os', p') ∧ Sames os os' ∧ Twins m' p' := by
  induction calls with
  | nil => intro m p h; exact ⟨_, _, _, _, rfl, rfl, trivial, h⟩
  | cons call calls ih =>
    intro m p h
    obtain ⟨o, m₁, o', p₁, e1, e2, ho, h₁⟩ := C129_call h call
    obtain ⟨os, m', os', p', e3, e4, hos, h'⟩ := ih h₁
    refine ⟨o :: os, m', o' :: os', p', ?_, ?_, ⟨ho, hos⟩, h'⟩
    · simp [CycleMap.run, e1, e3, bind, Except.bind, pure, Except.pure]
    · simp [PartialMap.run, e2, e4, bind, Except.bind, pure, Except.pure]

/-- New maps are twins, whatever their hash functions and capacities. -/
theorem C129_new (hb hb' : BuildHasher L R) (n n' : Nat) :
    Twins (CycleMap.withCapacityAndHasher n hb) (PartialMap.withCapacityAndHasher n' hb') :=
  ⟨.withCapacity n hb, .withCapacity n' hb', [], (CycleMap.withCapacity_repr n hb).shows, (PartialMap.withCapacity_repr n' hb').shows⟩

/-- C129: what an observer of one map says about a pair, an observer of the other says, too. -/
theorem C129_observers (h : Twins m p) :
    (∀ l, m.getRight l = p.getRight l) ∧ (∀ r, m.getLeft r = p.getLeft r) ∧
    (∀ l, m.containsLeft l = p.containsLeft l) ∧ (∀ r, m.containsRight r = p.containsRight r) ∧
    (∀ l r, m.arePaired l r = p.arePaired l r) ∧ m.isEmpty = p.isEmpty ∧
    m.len = p.lenLeft ∧ m.len = p.lenRight ∧ (∀ l, p.isLeftPaired l = m.containsLeft l) ∧ p.iterUnpairedList = [] := by
  obtain ⟨c, hm, hp⟩ := h.same
  refine ⟨fun l => ?_, fun r => ?_, fun l => ?_, fun r => ?_, fun l r => ?_, ?_, ?_, ?_, fun l => ?_, ?_⟩
  · rw [hm.getRight, hp.getRight, findL_both]; cases CycleSpec.findL c l <;> rfl
  · rw [hm.getLeft, hp.getLeft, findR_both]; cases CycleSpec.findR c r <;> rfl
  · rw [hm.containsLeft, hp.containsLeft, List.any_map]; rfl
  · rw [hm.containsRight, hp.containsRight, List.any_map]; rfl
  · rw [hm.arePaired, hp.arePaired, hasPair_both]
  · rw [hm.isEmpty, hp.isEmpty]; simp
  · rw [hm.len, hp.lenLeft, filterMap_some_both _ _ _ leftOf_both, List.length_map]
  · rw [hm.len, hp.lenRight, filterMap_some_both _ _ _ rightOf_both, List.length_map]
  · rw [hm.containsLeft, hp.isLeftPaired, List.any_map]; rfl
  · have := hp.iterUnpaired
    rw [filter_lone_both] at this
    exact this.eq_nil

/-- C129, `swap_left_or_insert`: the types agree unless `old` is missing and `new` is present.  (Then `CycleMap` hands back
only one item of the pair it drops, C17, and `PartialCycleMap` panics, C49.) -/
theorem C129_swapLeftOrInsert (h : Twins m p) (old new : L) (r : R) (hs : m.containsLeft old = true ∨ m.containsLeft new = false) :
    ∃ o m' p', m.swapLeftOrInsert old new r = .ok (o, m') ∧ p.swapLeftOrInsert old new r = .ok (o.mapRight both, p') ∧
      ∃ c : List (L × R), m'.Shows c ∧ p'.Shows (c.map both) := by
  obtain ⟨c, hm, hp⟩ := h.same
  have hh : (CycleSpec.findL c old).isSome = true ∨ CycleSpec.findL c new = none := by
    simpa [hm.containsLeft, CycleSpec.findL] using hs
  obtain ⟨o, m', c', e1, s1, r1⟩ := CycleMap.exec_simulates (h.cycle.repr_of_shows hm) (op := .swapLeftOrInsert old new r) trivial
  obtain ⟨o', p', c'', e2, s2, r2, -⟩ := PartialMap.exec_simulates (h.part.repr_of_shows hp) (op := .swapLeftOrInsert old new r)
    (by simpa [PartialMap.Safe, findL_both] using hh)
  simp only [CycleMap.exec, bind, Except.bind, pure, Except.pure] at e1
  simp only [PartialMap.exec, bind, Except.bind, pure, Except.pure] at e2
  cases hq : m.swapLeftOrInsert old new r with
  | error _ => rw [hq] at e1; cases e1
  | ok q =>
  cases hq' : p.swapLeftOrInsert old new r with
  | error _ => rw [hq'] at e2; cases e2
  | ok q' =>
  rw [hq] at e1; rw [hq'] at e2
  obtain ⟨x, m₁⟩ := q
  obtain ⟨x', p₁⟩ := q'
  cases e1; cases e2
  have key : x' = x.mapRight both ∧ c'' = c'.map both := by
    simp only [CycleMap.Step, PartialMap.Step, findL_both, Option.isSome_map] at s1 s2
    split at s1
    · rename_i ho
      rw [if_pos ho] at s2
      rw [swapLeft_both] at s2
      obtain ⟨a, b⟩ := s1; obtain ⟨a', b'⟩ := s2
      cases a; cases a'
      exact ⟨rfl, by rw [b, b']⟩
    · rename_i ho
      rw [if_neg ho] at s2
      obtain ⟨a, b⟩ := s1; obtain ⟨hn, a', b'⟩ := s2
      cases a; cases a'
      have hn : CycleSpec.findL c new = none := by simpa using hn
      rw [insert_both] at b'
      refine ⟨?_, by rw [b, b']⟩
      have hp : CycleSpec.hasPair c new r = false := by
        simp only [CycleSpec.findL, List.find?_eq_none] at hn
        simp only [CycleSpec.hasPair, List.any_eq_false, Bool.and_eq_true, not_and]
        exact fun q hq he => absurd he (hn q hq)
      simp only [CycleSpec.insert, hn, hp, findR_both]
      cases CycleSpec.findR c r <;> rfl
  obtain ⟨rfl, rfl⟩ := key
  exact ⟨x, m₁, p₁, rfl, rfl, c', r1.shows, r2.shows⟩

/-- C129, `swap_right_or_insert`: the types agree if `old` is present or neither of the items to insert is.  (Otherwise one
of the two panics, C18, C49.) -/
theorem C129_swapRightOrInsert (h : Twins m p) (old new : R) (l : L)
    (hs : m.containsRight old = true ∨ m.containsRight new = false ∧ m.containsLeft l = false) :
    ∃ o m' p', m.swapRightOrInsert old new l = .ok (o, m') ∧ p.swapRightOrInsert old new l = .ok (o.mapRight both, p') ∧
      ∃ c : List (L × R), m'.Shows c ∧ p'.Shows (c.map both) := by
  obtain ⟨c, hm, hp⟩ := h.same
  have hh : (CycleSpec.findR c old).isSome = true ∨ CycleSpec.findR c new = none ∧ CycleSpec.findL c l = none := by
    simpa [hm.containsLeft, hm.containsRight, CycleSpec.findL, CycleSpec.findR] using hs
  obtain ⟨o, m', c', e1, s1, r1⟩ := CycleMap.exec_simulates (h.cycle.repr_of_shows hm) (op := .swapRightOrInsert old new l)
    (hh.imp id (·.2))
  obtain ⟨o', p', c'', e2, s2, r2, -⟩ := PartialMap.exec_simulates (h.part.repr_of_shows hp) (op := .swapRightOrInsert old new l)
    (by
      simp only [PartialMap.Safe, findR_both, Option.isSome_map, Option.map_eq_none_iff]
      exact hh.imp id fun h => .inr h.1)
  simp only [CycleMap.exec, bind, Except.bind, pure, Except.pure] at e1
  simp only [PartialMap.exec, bind, Except.bind, pure, Except.pure] at e2
  cases hq : m.swapRightOrInsert old new l with
  | error _ => rw [hq] at e1; cases e1
  | ok q =>
  cases hq' : p.swapRightOrInsert old new l with
  | error _ => rw [hq'] at e2; cases e2
  | ok q' =>
  rw [hq] at e1; rw [hq'] at e2
  obtain ⟨x, m₁⟩ := q
  obtain ⟨x', p₁⟩ := q'
  cases e1; cases e2
  have key : x' = x.mapRight both ∧ c'' = c'.map both := by
    simp only [CycleMap.Step, PartialMap.Step, findR_both, findL_both, Option.isSome_map] at s1 s2
    split at s1
    · rename_i ho
      rw [if_pos ho] at s2
      rw [swapRight_both] at s2
      obtain ⟨a, b⟩ := s1; obtain ⟨a', b'⟩ := s2
      cases a; cases a'
      exact ⟨rfl, by rw [b, b']⟩
    · rename_i ho
      rw [if_neg ho] at s2
      obtain ⟨-, a, b⟩ := s1; obtain ⟨-, a', b'⟩ := s2
      cases a; cases a'
      obtain ⟨h1, h2⟩ := hh.resolve_left ho
      rw [insert_both] at b'
      exact ⟨by simp [h1, h2, ofPair, mapRight], by rw [b, b']⟩
  obtain ⟨rfl, rfl⟩ := key
  exact ⟨x, m₁, p₁, rfl, rfl, c', r1.shows, r2.shows⟩

/-! A `CycleMap` under whose hash everything collides and a `PartialCycleMap` with a spreading hash. -/

/-- a history with replacing inserts, swaps that drop a pair, and removals -/
def calls : List (Call Nat Nat) :=
  [.extend [(1, 10), (2, 20), (3, 30)], .insert 1 20, .swapLeft 1 3, .swapRight 20 50, .removeViaLeft 8, .insert 4 40,
    .keep fun l _ => l != 4, .getRight 3, .iter]

theorem twins_new : Twins (CycleMap.withCapacityAndHasher 0 constHash) (PartialMap.withCapacityAndHasher 16 spreadHash) :=
  C129_new constHash spreadHash 0 16

example : ∃ os m' os' p', (CycleMap.withCapacityAndHasher 0 constHash).run (calls.map Call.cycle) = .ok (os, m') ∧
    (PartialMap.withCapacityAndHasher 16 spreadHash).run (calls.map Call.part) = .ok (os', p') ∧ Sames os os' ∧ Twins m' p' :=
  C129_history calls twins_new

/-- what the last two calls of that history answer on the `PartialCycleMap`: 3 has the partner 50, and nothing else is left -/
example : letI := messyRaw
    (match (PartialMap.withCapacityAndHasher 16 spreadHash : PartialMap Nat Nat).run (calls.map Call.part) with
    | .ok (os, _) => match os.drop 7 with
      | [.right (some 50), .entries [.someBoth 3 50]] => true
      | _ => false
    | .error _ => false) = true := by decide +kernel

/-- and on the `CycleMap` -/
example : letI := messyRaw
    (match (CycleMap.withCapacityAndHasher 0 constHash : CycleMap Nat Nat).run (calls.map Call.cycle) with
    | .ok (os, _) => match os.drop 7 with
      | [.right (some 50), .pairs [(3, 50)]] => true
      | _ => false
    | .error _ => false) = true := by decide +kernel

/-- twins with contents, for the other theorems -/
theorem twins_demo : ∃ (m : CycleMap Nat Nat) (p : PartialMap Nat Nat), Twins m p ∧ m.Shows [(3, 30), (2, 20), (1, 10)] := by
  obtain ⟨o, m', o', p', e1, e2, -, h⟩ := C129_call twins_new (.extend [(1, 10), (2, 20), (3, 30)])
  refine ⟨m', p', h, ?_⟩
  obtain ⟨m₁, e, h₁, -⟩ := CycleMap.extend_refines (CycleMap.withHasher_repr constHash) [(1, 10), (2, 20), (3, 30)]
  have e' : (CycleMap.withCapacityAndHasher 0 constHash).extend [(1, 10), (2, 20), (3, 30)] = .ok m₁ := e
  simp only [Call.cycle, CycleMap.exec, e', bind, Except.bind, pure, Except.pure] at e1
  cases e1
  exact h₁.shows

example : ∃ (m : CycleMap Nat Nat) (p : PartialMap Nat Nat), p.getRight 2 = some 20 ∧ p.lenRight = 3 ∧
    (∃ o m' p', m.swapLeftOrInsert 7 8 20 = .ok (o, m') ∧ p.swapLeftOrInsert 7 8 20 = .ok (o.mapRight both, p')) ∧
    (∃ o m' p', m.swapRightOrInsert 70 80 9 = .ok (o, m') ∧ p.swapRightOrInsert 70 80 9 = .ok (o.mapRight both, p')) := by
  obtain ⟨m, p, h, hm⟩ := twins_demo
  obtain ⟨h1, -, -, -, -, -, -, h2, -⟩ := C129_observers h
  obtain ⟨o, m', p', e1, e2, -⟩ := C129_swapLeftOrInsert h 7 8 20 (.inr (by rw [hm.containsLeft]; rfl))
  obtain ⟨o', m'', p'', e3, e4, -⟩ := C129_swapRightOrInsert h 70 80 9
    (.inr ⟨by rw [hm.containsRight]; rfl, by rw [hm.containsLeft]; rfl⟩)
  exact ⟨m, p, by rw [← h1, hm.getRight]; rfl, by rw [← h2, hm.len]; rfl, ⟨o, m', p', e1, e2⟩, o', m'', p'', e3, e4⟩

end Verif.Twin
