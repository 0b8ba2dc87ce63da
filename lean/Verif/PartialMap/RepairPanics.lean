import Verif.PartialMap.Panics
import Verif.PartialMap.Repair
/-
The repaired `drain_filter` of `Verif.PartialMap.Repair` (not in /repo) with a closure that may panic: `DrainFilterInner` and
`DrainFilterIter` of `/repo/src/partial_cycle_map.rs` as in `Verif.PartialMap.Panics`, with the new first line of the second loop.
-/
set_option linter.unusedSectionVars false
namespace Verif.PartialMap.Repair
open OptionalPair
open CycleMap (Ending)

section
variable [RawImpl] {L R : Type} [BEq L] [BEq R] {σ : Type}

/-- second loop of `DrainFilterInner::next` (2439-2445) with a new first line, `if pair.hash.is_some() { continue; }`, and with a
closure that may panic -/
def DrainFilter.nextRP (f : σ → OptionalPair L R → Option Bool × σ) (kept todo : List (UInt64 × MappingPair R)) (st : σ) :
    Next L R × List (UInt64 × MappingPair R) × List (UInt64 × MappingPair R) × σ :=
  match todo with
  | [] => (.done, kept, [], st)
  | e :: rest =>
    if e.2.hash.isSome then DrainFilter.nextRP f (kept ++ [e]) rest st
    else
      match f st (someRight e.2.value) with
      | (none, st') => (.panic, kept ++ [e], rest, st')
      | (some true, st') => (.item (someRight e.2.value), kept, rest, st')
      | (some false, st') => DrainFilter.nextRP f (kept ++ [e]) rest st'

/-- `DrainFilterInner::next` (2411-2447) with this loop -/
def DrainFilter.nextP (f : σ → OptionalPair L R → Option Bool × σ) (it : PartialMap.DrainFilter σ L R) :
    Res (Next L R × PartialMap.DrainFilter σ L R) := do
  match ← PartialMap.DrainFilter.nextLP f it.keptL it.todoL it.right it.st with
  | (.done, keptL, _, right, st) =>
    let (keptR, todoR) := if it.reset then ([], right.entries) else (it.keptR, it.todoR)
    let (o, keptR, todoR, st) := DrainFilter.nextRP f keptR todoR st
    return (o, { keptL := keptL, todoL := [], right := right, reset := false, keptR := keptR, todoR := todoR, st := st })
  | (o, keptL, todoL, right, st) =>
    return (o, { it with keptL := keptL, todoL := todoL, right := right, st := st })

/-- calling `next` at most `n` times, until it returns `None` or panics; the flag says whether it panicked -/
def DrainFilter.takeP (f : σ → OptionalPair L R → Option Bool × σ) :
    Nat → PartialMap.DrainFilter σ L R → Res (List (OptionalPair L R) × Bool × PartialMap.DrainFilter σ L R)
  | 0, it => .ok ([], false, it)
  | n + 1, it => do
    match ← DrainFilter.nextP f it with
    | (.done, it') => return ([], false, it')
    | (.panic, it') => return ([], true, it')
    | (.item p, it') =>
      let (ps, b, it'') ← DrainFilter.takeP f n it'
      return (p :: ps, b, it'')

/-- `drain_filter(f)` (1401-1418), at most `n` calls of this `next`, then `Drop` (2365-2378), also when a `next` panicked and the stack
is being unwound; a panic in `Drop` propagates, or aborts the process when the stack is being unwound already -/
def drainFilterP (m : PartialMap L R) (f : σ → OptionalPair L R → Option Bool × σ) (st : σ) (n : Nat) :
    Res (Ending × List (OptionalPair L R) × σ × PartialMap L R) := do
  let (ps, b, it) ← DrainFilter.takeP f n
    { keptL := [], todoL := m.left.entries, right := m.right, reset := true, keptR := [], todoR := [], st := st }
  let (_, b', it) ← DrainFilter.takeP f (it.todoL.length + it.right.len + it.todoR.length + 1) it
  let e := if b then (if b' then .aborted else .panicked) else (if b' then .panicked else .returned)
  return (e, ps, it.st, { m with left := RawImpl.touch (.erase (stays m.left (it.keptL ++ it.todoL))) { m.left with entries := it.keptL ++ it.todoL },
                                 right := RawImpl.touch (.erase (stays it.right it.rightEntries)) { it.right with entries := it.rightEntries } })

end
end Verif.PartialMap.Repair
