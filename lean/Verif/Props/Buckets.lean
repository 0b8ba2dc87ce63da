import Verif.CycleMap.Buckets
import Verif.PartialMap.Buckets
import Verif.Props.CycleDemo
import Verif.Props.PartialDemo
/-
The `unsafe` blocks of the two `drain_filter`s.  `drain_filter` is the only function of the crate that takes elements out of a table while a
`RawIter` over it lives; everything else that goes through a raw bucket borrows the map and leaves it alone.

C124: whatever is in the tables, no call of `next`, and no drop, ever uses an empty bucket, so nothing is read or handed out after it was taken
out, and the items handed out and the items still in the buckets are the items that were there.

C125: bucket by bucket, the code does what the model of the other properties says it does.
-/
namespace Verif.CycleMap
open CycleSpec OptionalPair Demo

section
variable [BucketImpl] [LawfulBuckets] {L R σ : Type}

/-- C124, `CycleMap`: any two tables (no map invariant is assumed, so also tables that a panic or a bad `Hash` left out of step), any closure
that may keep state and panic, any number of calls of `next`, panicked or not. -/
theorem C124_calls (left : Buckets (MappingPair L)) (right : Buckets (MappingPair R)) (f : σ → L → R → Option Bool × σ) (st : σ) (n : Nat) :
    ∃ os it, DrainFilterB.calls f n (.start left right st) = some (os, it) ∧
      ((handed os).map (·.1) ++ held it.left).Perm (held left) ∧ ((handed os).map (·.2) ++ held it.right).Perm (held right) := by
  obtain ⟨os, it, e, -, h1, h2⟩ := calls_sound f n (start_sound left right st)
  exact ⟨os, it, e, h1, h2⟩

/-- C124, `CycleMap`, with the drop of the iterator -/
theorem C124_drop (left : Buckets (MappingPair L)) (right : Buckets (MappingPair R)) (f : σ → L → R → Option Bool × σ) (st : σ) (n : Nat) :
    (drainFilterB left right f st n).isSome = true := drainFilterB_sound left right f st n

end

/-- two tables that are not in step: the left `2` names a partner the right table does not have, and the closure panics at `3` -/
example : letI := scanBuckets
    let left : Buckets (MappingPair Nat) := ⟨[none, some (7, ⟨1, 7, 0⟩), some (7, ⟨2, 7, 1⟩), none, some (7, ⟨3, 7, 2⟩), some (7, ⟨4, 7, 3⟩)]⟩
    let right : Buckets (MappingPair Nat) := ⟨[some (7, ⟨40, 7, 3⟩), some (7, ⟨30, 7, 2⟩), none, some (7, ⟨10, 7, 0⟩)]⟩
    (DrainFilterB.calls (fun (n : Nat) (l : Nat) (_ : Nat) => (if l = 3 then none else some true, n + 1)) 6 (.start left right 0)).map
        (fun x => (handed x.1, held x.2.left, held x.2.right, x.2.st)) =
      some ([(1, 10), (4, 40)], [2, 3], [30], 3) := by decide +kernel

/-- the model tells a wrong program from a right one: an iterator that yields a bucket a second time is undefined behaviour -/
example : letI := scanBuckets
    let left : Buckets (MappingPair Nat) := ⟨[some (7, ⟨1, 7, 0⟩)]⟩
    let right : Buckets (MappingPair Nat) := ⟨[some (7, ⟨10, 7, 0⟩)]⟩
    DrainFilterB.calls (fun (_ : Unit) (_ _ : Nat) => (some true, ())) 2 ⟨[0, 0], left, right, ()⟩ = none := rfl

section
variable [BucketImpl] [LawfulBuckets] [RawImpl] [LawfulRaw] {L R σ : Type} [BEq L] [BEq R] [EquivBEq L] [EquivBEq R]
variable {m : CycleMap L R} {c : List (L × R)}

/-- C125, `CycleMap`: for a map a program can have, however its entries lie in the buckets. -/
theorem C125_drain_filter (h : Reachable m) (hc : Shows m c) {left : Buckets (MappingPair L)} {right : Buckets (MappingPair R)}
    (hl : left.elems = m.left.entries) (hr : right.elems.Perm m.right.entries) (f : σ → L → R → Option Bool × σ) (st : σ) (n : Nat) :
    ∃ e ps st' m' left' right', m.drainFilterP f st n = .ok (e, ps, st', m') ∧
      drainFilterB left right f st n = some (e, ps, st', left', right') ∧
      left'.elems.Perm m'.left.entries ∧ right'.elems.Perm m'.right.entries :=
  drainFilterB_agrees (h.repr_of_shows hc) hl hr f st n

end

/-- the demo map laid out with gaps; the closure keeps one pair, takes one and panics at the third -/
example [RawImpl] [LawfulRaw] : letI := scanBuckets
    ∃ e ps st' m' left' right', demo.drainFilterP (fun (n : Nat) (_ _ : Nat) => (if n = 2 then none else some (n == 1), n + 1)) 0 5 = .ok (e, ps, st', m') ∧
      drainFilterB ⟨none :: demo.left.entries.map some ++ [none]⟩ ⟨[none, none] ++ demo.right.entries.map some⟩
        (fun (n : Nat) (_ _ : Nat) => (if n = 2 then none else some (n == 1), n + 1)) 0 5 = some (e, ps, st', left', right') ∧
      left'.elems.Perm m'.left.entries ∧ right'.elems.Perm m'.right.entries := by
  letI := scanBuckets
  haveI := scanBuckets_lawful
  exact C125_drain_filter demo_reachable demo_shows (by simp [Buckets.elems, List.filterMap_map])
    (by simp [Buckets.elems, List.filterMap_map]) _ 0 5

end Verif.CycleMap

namespace Verif.PartialMap
open PartialSpec OptionalPair Demo
open CycleMap (Ending)

section
variable [BucketImpl] [LawfulBuckets] {L R σ : Type}

/-- C124, `PartialCycleMap`: any two tables, any closure that may keep state and panic, any number of calls of `next`, panicked or not. -/
theorem C124_calls (left : Buckets (MappingPair L)) (right : Buckets (MappingPair R)) (f : σ → OptionalPair L R → Option Bool × σ) (st : σ)
    (n : Nat) : ∃ os it, DrainFilterB.calls f n (.start left right st) = some (os, it) ∧
      ((handed os).filterMap leftOf ++ held it.left).Perm (held left) ∧ ((handed os).filterMap rightOf ++ held it.right).Perm (held right) := by
  obtain ⟨os, it, e, -, h1, h2⟩ := calls_sound f n (start_sound left right st)
  exact ⟨os, it, e, h1, h2⟩

/-- C124, `PartialCycleMap`, with the drop of the iterator -/
theorem C124_drop (left : Buckets (MappingPair L)) (right : Buckets (MappingPair R)) (f : σ → OptionalPair L R → Option Bool × σ) (st : σ)
    (n : Nat) : (drainFilterB left right f st n).isSome = true := drainFilterB_sound left right f st n

end

/-- two tables that are not in step, and a closure that panics at the left `3` -/
example : letI := scanBuckets
    let left : Buckets (MappingPair Nat) := ⟨[none, some (7, ⟨1, some 7, 0⟩), some (7, ⟨2, some 7, 1⟩), none, some (7, ⟨3, none, 2⟩), some (7, ⟨4, none, 3⟩)]⟩
    let right : Buckets (MappingPair Nat) := ⟨[some (7, ⟨40, some 7, 3⟩), some (7, ⟨30, none, 2⟩), none, some (7, ⟨10, some 7, 0⟩)]⟩
    (DrainFilterB.calls (fun (n : Nat) (p : OptionalPair Nat Nat) => (if leftOf p = some 3 then none else some true, n + 1)) 8
        (.start left right 0)).map (fun x => (handed x.1, held x.2.left, held x.2.right, x.2.st)) =
      some ([someBoth 1 10, someLeft 4, someRight 40, someRight 30], [2, 3], [], 5) := by decide +kernel

/-- the `reset` flag is needed: the right iterator made at the start would use the bucket of the partner that was taken out -/
example : letI := scanBuckets
    let left : Buckets (MappingPair Nat) := ⟨[some (7, ⟨1, some 7, 0⟩)]⟩
    let right : Buckets (MappingPair Nat) := ⟨[some (7, ⟨10, some 7, 0⟩)]⟩
    DrainFilterB.calls (fun (_ : Unit) (_ : OptionalPair Nat Nat) => (some true, ())) 2
      { DrainFilterB.start left right () with reset := false } = none := rfl

section
variable [BucketImpl] [LawfulBuckets] [RawImpl] [LawfulRaw] [StableErase] {L R σ : Type} [BEq L] [BEq R] [EquivBEq L] [EquivBEq R]
variable {m : PartialMap L R} {c : List (OptionalPair L R)}

/-- C125, `PartialCycleMap`: for a map a program can have.  The right table is read in table order after elements were taken out of it, so the
table of the main model must keep its order there, as buckets do. -/
theorem C125_drain_filter (h : Reachable m) (hc : Shows m c) {left : Buckets (MappingPair L)} {right : Buckets (MappingPair R)}
    (hl : left.elems = m.left.entries) (hr : right.elems = m.right.entries) (f : σ → OptionalPair L R → Option Bool × σ) (st : σ) (n : Nat) :
    ∃ e ps st' m' left' right', m.drainFilterP f st n = .ok (e, ps, st', m') ∧
      drainFilterB left right f st n = some (e, ps, st', left', right') ∧
      left'.elems = m'.left.entries ∧ right'.elems = m'.right.entries :=
  drainFilterB_agrees (h.repr_of_shows hc) hl hr f st n

end

/-- the demo map laid out with gaps; the closure takes every other entry -/
example : letI := scanBuckets; letI := tidyRaw; haveI := tidyRaw_lawful
    ∃ e ps st' m' left' right', demo.drainFilterP (fun (n : Nat) (_ : OptionalPair Nat Nat) => (some (n % 2 == 0), n + 1)) 0 5 = .ok (e, ps, st', m') ∧
      drainFilterB ⟨none :: demo.left.entries.map some ++ [none]⟩ ⟨[none, none] ++ demo.right.entries.map some⟩
        (fun (n : Nat) (_ : OptionalPair Nat Nat) => (some (n % 2 == 0), n + 1)) 0 5 = some (e, ps, st', left', right') ∧
      left'.elems = m'.left.entries ∧ right'.elems = m'.right.entries := by
  letI := scanBuckets; letI := tidyRaw; haveI := tidyRaw_lawful; haveI := tidyRaw_stable
  haveI := scanBuckets_lawful
  exact C125_drain_filter demo_reachable demo_shows (by simp [Buckets.elems, List.filterMap_map])
    (by simp [Buckets.elems, List.filterMap_map]) _ 0 5

end Verif.PartialMap
