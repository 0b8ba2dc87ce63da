import Verif.PartialMap.Bulk
import Verif.PartialMap.Counter
import Verif.Panics
/-
Closures that may panic inside the `retain` family and `drain_filter` of `PartialCycleMap`.  A closure is
`σ → OptionalPair L R → Option Bool × σ`; `none` is a panic, the captured state survives it (the caller may catch the panic
and go on using the map).
-/
set_option linter.unusedSectionVars false
set_option linter.unusedSimpArgs false
namespace Verif.PartialMap
open PartialSpec OptionalPair
open CycleSpec (split)
open CycleMap (Ending split_perm split_append)

section
variable [RawImpl] {L R : Type} [BEq L] [BEq R]

/-- `retainScan` (first loop of `retain`, 1440-1452) with a closure that may panic: a panic leaves the loop -/
def retainScanP {σ : Type} (m : PartialMap L R) (f : σ → OptionalPair L R → Option Bool × σ) :
    List (MappingPair L) → σ → Res (Option (List (Option UInt64 × Option UInt64 × Nat)) × σ)
  | [], st => .ok (some [], st)
  | l :: rest, st =>
    match Iter.next ⟨l :: rest⟩ m with
    | none => .ok (some [], st)
    | some (op, _) =>
      match f st op with
      | (none, st') => .ok (none, st')
      | (some true, st') => do
        let (left, right) := op.toPair
        let lHash := left.map m.hb.hl
        let rHash := right.map m.hb.hr
        let id ← match left with
          | some l =>
            match m.getLeftInner l with
            | none => .error .unwrapNone
            | some p => pure p.id
          | none =>
            match right with
            | none => .error .unwrapNone
            | some r =>
              match m.getRightInner r with
              | none => .error .unwrapNone
              | some p => pure p.id
        let (d, st'') ← retainScanP m f rest st'
        return (d.map ((lHash, rHash, id) :: ·), st'')
      | (some false, st') => retainScanP m f rest st'

/-- `retain` (1434-1469) with a closure that may panic: nothing has been removed when the first loop panics -/
def retainP {σ : Type} (m : PartialMap L R) (f : σ → OptionalPair L R → Option Bool × σ) (st : σ) :
    Res (Ending × σ × PartialMap L R) := do
  match ← retainScanP m f m.iter.todo st with
  | (none, st) => return (.panicked, st, m)
  | (some toDrop, st) => return (.returned, st, ← retainDrop m toDrop)

/-- `retainPairedScan` (first loop of `retain_paired`, 1491-1498) with a closure that may panic -/
def retainPairedScanP {σ : Type} (m : PartialMap L R) (f : σ → L × R → Option Bool × σ) :
    List (L × R) → σ → Res (Option (List (UInt64 × UInt64 × Nat)) × σ)
  | [], st => .ok (some [], st)
  | (left, right) :: rest, st =>
    match f st (left, right) with
    | (none, st') => .ok (none, st')
    | (some true, st') =>
      match m.getLeftInner left with
      | none => .error .unwrapNone
      | some p => do
        let (d, st'') ← retainPairedScanP m f rest st'
        return (d.map ((m.hb.hl left, m.hb.hr right, p.id) :: ·), st'')
    | (some false, st') => retainPairedScanP m f rest st'

/-- `retain_paired` (1486-1502) with a closure that may panic -/
def retainPairedP {σ : Type} (m : PartialMap L R) (f : σ → L × R → Option Bool × σ) (st : σ) :
    Res (Ending × σ × PartialMap L R) := do
  let ps ← m.iterPairedList
  match ← retainPairedScanP m f ps st with
  | (none, st) => return (.panicked, st, m)
  | (some toDrop, st) => return (.returned, st, retainPairedDrop m toDrop)

/-- `retainUnpairedScan` (first loop of `retain_unpaired`, 1525-1542) with a closure that may panic -/
def retainUnpairedScanP {σ : Type} (m : PartialMap L R) (f : σ → OptionalPair L R → Option Bool × σ) :
    List (OptionalPair L R) → σ → Res (Option (List (Option UInt64 × Option UInt64 × Nat)) × σ)
  | [], st => .ok (some [], st)
  | op :: rest, st =>
    match f st op with
    | (none, st') => .ok (none, st')
    | (some true, st') =>
      match op with
      | someLeft left =>
        match m.left.get (m.hb.hl left) (equivalentKey left) with
        | none => .error .unwrapNone
        | some p => do
          let (d, st'') ← retainUnpairedScanP m f rest st'
          return (d.map ((some (m.hb.hl left), none, p.id) :: ·), st'')
      | someRight right =>
        match m.right.get (m.hb.hr right) (equivalentKey right) with
        | none => .error .unwrapNone
        | some p => do
          let (d, st'') ← retainUnpairedScanP m f rest st'
          return (d.map ((none, some (m.hb.hr right), p.id) :: ·), st'')
      | _ => .error .unreachable
    | (some false, st') => retainUnpairedScanP m f rest st'

/-- `retain_unpaired` (1519-1557) with a closure that may panic -/
def retainUnpairedP {σ : Type} (m : PartialMap L R) (f : σ → OptionalPair L R → Option Bool × σ) (st : σ) :
    Res (Ending × σ × PartialMap L R) := do
  match ← retainUnpairedScanP m f m.iterUnpairedList st with
  | (none, st) => return (.panicked, st, m)
  | (some toDrop, st) => return (.returned, st, ← retainUnpairedDrop m toDrop)

/-- what `DrainFilterInner::next`, or one of its loops, ends with -/
inductive Next (L R : Type) where
  | done
  | item (e : OptionalPair L R)
  | panic

/-- first loop of `DrainFilterInner::next` (2415-2434) with a closure that may panic: the visited entry has been taken
from the iterator, and neither table has been changed for it -/
def DrainFilter.nextLP {σ : Type} (f : σ → OptionalPair L R → Option Bool × σ)
    (kept todo : List (UInt64 × MappingPair L)) (right : RawTable (MappingPair R)) (st : σ) :
    Res (Next L R × List (UInt64 × MappingPair L) × List (UInt64 × MappingPair L) × RawTable (MappingPair R) × σ) :=
  match todo with
  | [] => .ok (.done, kept, [], right, st)
  | e :: rest =>
    match e.2.hash with
    | some hash =>
      match right.removeEntry hash (justId e.2.id) with
      | none => .error .unwrapNone
      | some (r, right') =>
        match f st (someBoth e.2.value r.value) with
        | (none, st') => .ok (.panic, kept ++ [e], rest, right, st')
        | (some true, st') => .ok (.item (someBoth e.2.value r.value), kept, rest, right', st')
        | (some false, st') => DrainFilter.nextLP f (kept ++ [e]) rest right st'
    | none =>
      match f st (someLeft e.2.value) with
      | (none, st') => .ok (.panic, kept ++ [e], rest, right, st')
      | (some true, st') => .ok (.item (someLeft e.2.value), kept, rest, right, st')
      | (some false, st') => DrainFilter.nextLP f (kept ++ [e]) rest right st'

/-- second loop of `DrainFilterInner::next` (2439-2445) with a closure that may panic -/
def DrainFilter.nextRP {σ : Type} (f : σ → OptionalPair L R → Option Bool × σ)
    (kept todo : List (UInt64 × MappingPair R)) (st : σ) :
    Next L R × List (UInt64 × MappingPair R) × List (UInt64 × MappingPair R) × σ :=
  match todo with
  | [] => (.done, kept, [], st)
  | e :: rest =>
    match f st (someRight e.2.value) with
    | (none, st') => (.panic, kept ++ [e], rest, st')
    | (some true, st') => (.item (someRight e.2.value), kept, rest, st')
    | (some false, st') => DrainFilter.nextRP f (kept ++ [e]) rest st'

/-- `DrainFilterInner::next` (2411-2447) with a closure that may panic -/
def DrainFilter.nextP {σ : Type} (f : σ → OptionalPair L R → Option Bool × σ) (it : DrainFilter σ L R) :
    Res (Next L R × DrainFilter σ L R) := do
  match ← DrainFilter.nextLP f it.keptL it.todoL it.right it.st with
  | (.done, keptL, _, right, st) =>
    let (keptR, todoR) := if it.reset then ([], right.entries) else (it.keptR, it.todoR)
    let (o, keptR, todoR, st) := DrainFilter.nextRP f keptR todoR st
    return (o, { keptL := keptL, todoL := [], right := right, reset := false, keptR := keptR, todoR := todoR, st := st })
  | (o, keptL, todoL, right, st) =>
    return (o, { it with keptL := keptL, todoL := todoL, right := right, st := st })

/-- calling `next` at most `n` times, until it returns `None` or panics; the flag says whether it panicked -/
def DrainFilter.takeP {σ : Type} (f : σ → OptionalPair L R → Option Bool × σ) :
    Nat → DrainFilter σ L R → Res (List (OptionalPair L R) × Bool × DrainFilter σ L R)
  | 0, it => .ok ([], false, it)
  | n + 1, it => do
    match ← DrainFilter.nextP f it with
    | (.done, it') => return ([], false, it')
    | (.panic, it') => return ([], true, it')
    | (.item p, it') =>
      let (ps, b, it'') ← DrainFilter.takeP f n it'
      return (p :: ps, b, it'')

/-- the entries of the right table: during the first pass (`reset_right_iter` still set) those of `right` -/
def DrainFilter.rightEntries {σ : Type} (it : DrainFilter σ L R) : List (UInt64 × MappingPair R) :=
  if it.reset then it.right.entries else it.keptR ++ it.todoR

/-- `drain_filter(f)` (1401-1418), at most `n` calls of `next`, then `Drop` (2365-2378) — also when a `next` panicked and
the stack is being unwound.  `Drop` calls `next` until it returns `None`; if the closure panics there, the panic propagates
(the guard of 2374 is not alive while `next` runs), or, when already unwinding, the process aborts. -/
def drainFilterP {σ : Type} (m : PartialMap L R) (f : σ → OptionalPair L R → Option Bool × σ) (st : σ) (n : Nat) :
    Res (Ending × List (OptionalPair L R) × σ × PartialMap L R) := do
  let (ps, b, it) ← DrainFilter.takeP f n
    { keptL := [], todoL := m.left.entries, right := m.right, reset := true, keptR := [], todoR := [], st := st }
  let (_, b', it) ← DrainFilter.takeP f (it.todoL.length + it.right.len + it.todoR.length + 1) it
  let e := if b then (if b' then .aborted else .panicked) else (if b' then .panicked else .returned)
  return (e, ps, it.st, { m with left := RawImpl.touch (.erase (stays m.left (it.keptL ++ it.todoL))) { m.left with entries := it.keptL ++ it.todoL },
                                 right := RawImpl.touch (.erase (stays it.right it.rightEntries)) { it.right with entries := it.rightEntries } })

end

variable [RawImpl] [LawfulRaw] {L R : Type} [BEq L] [BEq R] [EquivBEq L] [EquivBEq R]
variable {m : PartialMap L R} {c : List (OptionalPair L R)}

/-! ### The retain family -/

theorem retainScan_stuck {σ : Type} (f : σ → OptionalPair L R → Option Bool × σ) (ls : List (MappingPair L)) (s : σ) {d s'}
    (e : m.retainScan (once f) ls (s, true) = .ok (d, s')) : s' = (s, true) := by
  induction ls with
  | nil => cases e; rfl
  | cons l ls ih =>
    simp only [retainScan, once] at e
    split at e
    · cases e; rfl
    · exact ih e

theorem retainScanP_eq {σ : Type} (f : σ → OptionalPair L R → Option Bool × σ) (ls : List (MappingPair L)) (s : σ) {d s' b}
    (e : m.retainScan (once f) ls (s, false) = .ok (d, (s', b))) :
    m.retainScanP f ls s = .ok (if b then none else some d, s') := by
  induction ls generalizing s d s' b with
  | nil => cases e; rfl
  | cons l ls ih =>
    simp only [retainScan, once] at e
    simp only [retainScanP]
    split at e
    · next hn => cases e; simp [hn]
    · next op it hn =>
      simp only [hn]
      cases hf : f s op with
      | mk x t =>
        match x with
        | none =>
          simp only [hf] at e
          cases retainScan_stuck f ls t e
          rfl
        | some false => simp only [hf] at e; exact ih _ e
        | some true =>
          simp only [hf] at e
          simp only [bind, Except.bind, pure, Except.pure] at e ⊢
          cases hs : m.retainScan (once f) ls (t, false) with
          | error err =>
            exfalso
            simp only [hs] at e
            repeat' split at e
            all_goals cases e
          | ok v =>
            obtain ⟨d', s'', b'⟩ := v
            have := ih _ hs
            simp only [hs] at e
            simp only [this]
            generalize op.toPair.1 = left at e ⊢
            generalize op.toPair.2 = right at e ⊢
            cases left with
            | some l =>
              simp only at e ⊢
              cases hg : m.getLeftInner l with
              | none => rw [hg] at e; cases e
              | some p => rw [hg] at e; cases e; cases b <;> rfl
            | none =>
              cases right with
              | none => cases e
              | some r =>
                simp only at e ⊢
                cases hg : m.getRightInner r with
                | none => rw [hg] at e; cases e
                | some p => rw [hg] at e; cases e; cases b <;> rfl

theorem retainP_refines {σ : Type} (h : Repr m c) (f : σ → OptionalPair L R → Option Bool × σ) (s : σ) :
    ∃ (d us : List (OptionalPair L R)) (m' : PartialMap L R),
      (d ++ us).Perm c ∧ (∀ e ∈ d, (leftOf e).isSome = true) ∧ (∀ e ∈ us, leftOf e = none) ∧
      ((crashes f d s = true ∧ m.retainP f s = .ok (.panicked, lastState f d s, m)) ∨
       (crashes f d s = false ∧ m.retainP f s = .ok (.returned, (split (calm f) d s).2.2, m') ∧
        Repr m' ((split (calm f) d s).2.1 ++ us) ∧ m'.hb = m.hb)) := by
  obtain ⟨d, us, m', h1, h2, h3, e, h4, hb', -⟩ := retain_refines h (once f) (s, false)
  obtain ⟨⟨toDrop, s', b⟩, e1, e⟩ := CycleMap.bind_ok e
  obtain ⟨m1, e2, e⟩ := CycleMap.bind_ok e
  have eP := retainScanP_eq f _ s e1
  refine ⟨d, us, m', h1, h2, h3, ?_⟩
  rcases split_once f d s with ⟨c1, c2⟩ | ⟨c1, c2⟩
  · have hb : (s', b) = (lastState f d s, true) := by
      have := congrArg (fun x => x.map (fun x => x.1)) e
      simp only [pure, Except.pure, Except.map, c2] at this
      cases this; rfl
    cases hb
    exact .inl ⟨c1, by simp only [retainP, eP, bind, Except.bind]; rfl⟩
  · rw [c2] at e h4
    cases e
    exact .inr ⟨c1, by simp [retainP, eP, bind, Except.bind, e2, pure, Except.pure], h4, hb'⟩

theorem retainPairedScan_stuck {σ : Type} (f : σ → L × R → Option Bool × σ) (ls : List (L × R)) (s : σ) {d s'}
    (e : m.retainPairedScan (fun s a b => once f s (a, b)) ls (s, true) = .ok (d, s')) : s' = (s, true) := by
  induction ls with
  | nil => cases e; rfl
  | cons l ls ih => exact ih e

theorem retainPairedScanP_eq {σ : Type} (f : σ → L × R → Option Bool × σ) (ls : List (L × R)) (s : σ) {d s' b}
    (e : m.retainPairedScan (fun s a b => once f s (a, b)) ls (s, false) = .ok (d, (s', b))) :
    m.retainPairedScanP f ls s = .ok (if b then none else some d, s') := by
  induction ls generalizing s d s' b with
  | nil => cases e; rfl
  | cons l ls ih =>
    obtain ⟨left, right⟩ := l
    simp only [retainPairedScan] at e
    simp only [retainPairedScanP]
    cases hf : f s (left, right) with
    | mk x t =>
      match x with
      | none =>
        have ho : once f (s, false) (left, right) = (false, (t, true)) := by simp [once, hf]
        simp only [ho] at e
        cases retainPairedScan_stuck f ls t e
        rfl
      | some false =>
        have ho : once f (s, false) (left, right) = (false, (t, false)) := by simp [once, hf]
        simp only [ho] at e; exact ih _ e
      | some true =>
        have ho : once f (s, false) (left, right) = (true, (t, false)) := by simp [once, hf]
        simp only [ho] at e
        simp only [bind, Except.bind, pure, Except.pure] at e ⊢
        cases hg : m.getLeftInner left with
        | none => rw [hg] at e; cases e
        | some p =>
          rw [hg] at e
          cases hs : m.retainPairedScan (fun s a b => once f s (a, b)) ls (t, false) with
          | error err => simp only [hs] at e; cases e
          | ok v =>
            obtain ⟨d', s'', b'⟩ := v
            simp only [hs] at e
            cases e
            simp only [ih _ hs]
            cases b <;> rfl

theorem retainPairedP_refines {σ : Type} (h : Repr m c) (f : σ → L × R → Option Bool × σ) (s : σ) :
    ∃ (d : List (L × R)) (m' : PartialMap L R), d.Perm (c.filterMap pairOf) ∧
      ((crashes f d s = true ∧ m.retainPairedP f s = .ok (.panicked, lastState f d s, m)) ∨
       (crashes f d s = false ∧ m.retainPairedP f s = .ok (.returned, (split (calm f) d s).2.2, m') ∧
        Repr m' ((split (calm f) d s).2.1.map (fun p => someBoth p.1 p.2) ++ c.filter fun e => !isPair e) ∧ m'.hb = m.hb)) := by
  obtain ⟨d, m', h1, e, h4, hb', -⟩ := retainPaired_refines h (fun s a b => once f s (a, b)) (s, false)
  obtain ⟨ps, e0, e⟩ := CycleMap.bind_ok e
  obtain ⟨⟨toDrop, s', b⟩, e1, e⟩ := CycleMap.bind_ok e
  have eP := retainPairedScanP_eq f _ s e1
  refine ⟨d, m', h1, ?_⟩
  rcases split_once f d s with ⟨c1, c2⟩ | ⟨c1, c2⟩
  · have hb : (s', b) = (lastState f d s, true) := by
      have := congrArg (fun x => x.map (fun x => x.1)) e
      simp only [pure, Except.pure, Except.map, c2] at this
      cases this; rfl
    cases hb
    exact .inl ⟨c1, by simp only [retainPairedP, e0, eP, bind, Except.bind]; rfl⟩
  · simp only [c2] at e h4
    cases e
    exact .inr ⟨c1, by simp [retainPairedP, e0, eP, bind, Except.bind, pure, Except.pure], h4, hb'⟩

theorem retainUnpairedScan_stuck {σ : Type} (f : σ → OptionalPair L R → Option Bool × σ) (ls : List (OptionalPair L R)) (s : σ)
    {d s'} (e : m.retainUnpairedScan (once f) ls (s, true) = .ok (d, s')) : s' = (s, true) := by
  induction ls with
  | nil => cases e; rfl
  | cons l ls ih => exact ih e

theorem retainUnpairedScanP_eq {σ : Type} (f : σ → OptionalPair L R → Option Bool × σ) (ls : List (OptionalPair L R)) (s : σ)
    {d s' b} (e : m.retainUnpairedScan (once f) ls (s, false) = .ok (d, (s', b))) :
    m.retainUnpairedScanP f ls s = .ok (if b then none else some d, s') := by
  induction ls generalizing s d s' b with
  | nil => cases e; rfl
  | cons op ls ih =>
    simp only [retainUnpairedScan, once] at e
    simp only [retainUnpairedScanP]
    cases hf : f s op with
    | mk x t =>
      match x with
      | none =>
        simp only [hf] at e
        cases retainUnpairedScan_stuck f ls t e
        rfl
      | some false => simp only [hf] at e; exact ih _ e
      | some true =>
        simp only [hf] at e
        simp only [bind, Except.bind, pure, Except.pure] at e ⊢
        cases hs : m.retainUnpairedScan (once f) ls (t, false) with
        | error err =>
          exfalso
          simp only [hs] at e
          repeat' split at e
          all_goals cases e
        | ok v =>
          obtain ⟨d', s'', b'⟩ := v
          simp only [hs] at e
          simp only [ih _ hs]
          cases op with
          | neither => cases e
          | someBoth => cases e
          | someLeft a =>
            simp only at e ⊢
            cases hg : m.left.get (m.hb.hl a) (equivalentKey a) with
            | none => rw [hg] at e; cases e
            | some p => rw [hg] at e; cases e; cases b <;> rfl
          | someRight a =>
            simp only at e ⊢
            cases hg : m.right.get (m.hb.hr a) (equivalentKey a) with
            | none => rw [hg] at e; cases e
            | some p => rw [hg] at e; cases e; cases b <;> rfl

theorem retainUnpairedP_refines {σ : Type} (h : Repr m c) (f : σ → OptionalPair L R → Option Bool × σ) (s : σ) :
    ∃ (d : List (OptionalPair L R)) (m' : PartialMap L R), d.Perm (c.filter fun e => !isPair e) ∧
      ((crashes f d s = true ∧ m.retainUnpairedP f s = .ok (.panicked, lastState f d s, m)) ∨
       (crashes f d s = false ∧ m.retainUnpairedP f s = .ok (.returned, (split (calm f) d s).2.2, m') ∧
        Repr m' ((split (calm f) d s).2.1 ++ c.filter isPair) ∧ m'.hb = m.hb)) := by
  obtain ⟨d, m', h1, e, h4, hb', -⟩ := retainUnpaired_refines h (once f) (s, false)
  obtain ⟨⟨toDrop, s', b⟩, e1, e⟩ := CycleMap.bind_ok e
  obtain ⟨m1, e2, e⟩ := CycleMap.bind_ok e
  have eP := retainUnpairedScanP_eq f _ s e1
  refine ⟨d, m', h1, ?_⟩
  rcases split_once f d s with ⟨c1, c2⟩ | ⟨c1, c2⟩
  · have hb : (s', b) = (lastState f d s, true) := by
      have := congrArg (fun x => x.map (fun x => x.1)) e
      simp only [pure, Except.pure, Except.map, c2] at this
      cases this; rfl
    cases hb
    exact .inl ⟨c1, by simp only [retainUnpairedP, eP, bind, Except.bind]; rfl⟩
  · rw [c2] at e h4
    cases e
    exact .inr ⟨c1, by simp [retainUnpairedP, eP, bind, Except.bind, e2, pure, Except.pure], h4, hb'⟩

/-! ### drain_filter -/

/-- Where an evaluation of `drain_filter` stands (used in proofs only). -/
inductive Mode where
  /-- no panic so far -/
  | calm
  /-- the caller's `next` panicked, `Drop` goes on -/
  | unwinding
  /-- a panic inside `Drop`: nothing is visited any more -/
  | stopped
deriving DecidableEq

/-- The closure made total: a panic counts as `false`; a panic inside `Drop` makes all later answers `false`.  The number is
the number of items the caller still asks for. -/
def guarded {σ α : Type} (f : σ → α → Option Bool × σ) : σ × Nat × Mode → α → Bool × (σ × Nat × Mode)
  | (s, k, .stopped), _ => (false, (s, k, .stopped))
  | (s, k, .unwinding), a =>
    match f s a with
    | (none, s') => (false, (s', k, .stopped))
    | (some b, s') => (b, (s', k, .unwinding))
  | (s, k, .calm), a =>
    match f s a with
    | (none, s') => (false, (s', k, if k = 0 then .stopped else .unwinding))
    | (some b, s') => (b, (s', if b then k - 1 else k, .calm))

/-- the same iterator for the guarded closure -/
def DrainFilter.lift {σ : Type} (it : DrainFilter σ L R) (k : Nat) (md : Mode) : DrainFilter (σ × Nat × Mode) L R :=
  ⟨it.keptL, it.todoL, it.right, it.reset, it.keptR, it.todoR, (it.st, k, md)⟩

/-- the state after an accepted entry -/
def Mode.left (k : Nat) : Mode → Nat
  | .calm => k - 1
  | _ => k

/-- the state after a panic -/
def Mode.hit (k : Nat) : Mode → Mode
  | .calm => if k = 0 then .stopped else .unwinding
  | _ => .stopped

theorem guarded_panic {σ α : Type} {f : σ → α → Option Bool × σ} {s s' : σ} {a : α} {k : Nat} {md : Mode}
    (h : f s a = (none, s')) (hm : md ≠ .stopped) : guarded f (s, k, md) a = (false, (s', k, md.hit k)) := by
  cases md with
  | stopped => exact absurd rfl hm
  | _ => simp [guarded, h, Mode.hit]

theorem guarded_true {σ α : Type} {f : σ → α → Option Bool × σ} {s s' : σ} {a : α} {k : Nat} {md : Mode}
    (h : f s a = (some true, s')) (hm : md ≠ .stopped) : guarded f (s, k, md) a = (true, (s', md.left k, md)) := by
  cases md with
  | stopped => exact absurd rfl hm
  | _ => simp [guarded, h, Mode.left]

theorem guarded_false {σ α : Type} {f : σ → α → Option Bool × σ} {s s' : σ} {a : α} {k : Nat} {md : Mode}
    (h : f s a = (some false, s')) (hm : md ≠ .stopped) : guarded f (s, k, md) a = (false, (s', k, md)) := by
  cases md with
  | stopped => exact absurd rfl hm
  | _ => simp [guarded, h]

/-- the guarded closure makes the first loop do the same, and go on after a panic -/
theorem nextLP_sim {σ : Type} (f : σ → OptionalPair L R → Option Bool × σ) (kept todo : List (UInt64 × MappingPair L))
    (right : RawTable (MappingPair R)) (s : σ) (k : Nat) {md : Mode} (hm : md ≠ .stopped) :
    DrainFilter.nextL (guarded f) kept todo right (s, k, md) =
      match DrainFilter.nextLP f kept todo right s with
      | .error e => .error e
      | .ok (.done, kept', todo', right', s') => .ok (none, kept', todo', right', (s', k, md))
      | .ok (.item y, kept', todo', right', s') => .ok (some y, kept', todo', right', (s', md.left k, md))
      | .ok (.panic, kept', todo', right', s') => DrainFilter.nextL (guarded f) kept' todo' right' (s', k, md.hit k) := by
  induction todo generalizing kept s with
  | nil => rfl
  | cons e rest ih =>
    simp only [DrainFilter.nextL, DrainFilter.nextLP]
    cases e.2.hash with
    | some hash =>
      simp only
      cases right.removeEntry hash (justId e.2.id) with
      | none => rfl
      | some v =>
        obtain ⟨r, right'⟩ := v
        simp only
        cases hf : f s (someBoth e.2.value r.value) with
        | mk b s' =>
          match b with
          | none => simp only [guarded_panic hf hm]
          | some true => simp only [guarded_true hf hm]
          | some false => simp only [guarded_false hf hm, ih]
    | none =>
      simp only
      cases hf : f s (someLeft e.2.value) with
      | mk b s' =>
        match b with
        | none => simp only [guarded_panic hf hm]
        | some true => simp only [guarded_true hf hm]
        | some false => simp only [guarded_false hf hm, ih]

theorem nextRP_sim {σ : Type} (f : σ → OptionalPair L R → Option Bool × σ) (kept todo : List (UInt64 × MappingPair R))
    (s : σ) (k : Nat) {md : Mode} (hm : md ≠ .stopped) :
    DrainFilter.nextR (guarded f) kept todo (s, k, md) =
      match DrainFilter.nextRP f kept todo s with
      | (.done, kept', todo', s') => (none, kept', todo', (s', k, md))
      | (.item y, kept', todo', s') => (some y, kept', todo', (s', md.left k, md))
      | (.panic, kept', todo', s') => DrainFilter.nextR (guarded f) kept' todo' (s', k, md.hit k) := by
  induction todo generalizing kept s with
  | nil => rfl
  | cons e rest ih =>
    simp only [DrainFilter.nextR, DrainFilter.nextRP]
    cases hf : f s (someRight e.2.value) with
    | mk b s' =>
      match b with
      | none => simp only [guarded_panic hf hm]
      | some true => simp only [guarded_true hf hm]
      | some false => simp only [guarded_false hf hm, ih]

theorem nextLP_done {σ : Type} {f : σ → OptionalPair L R → Option Bool × σ} {kept todo : List (UInt64 × MappingPair L)}
    {right : RawTable (MappingPair R)} {s : σ} {o kept' todo' right' s'}
    (h : DrainFilter.nextLP f kept todo right s = .ok (o, kept', todo', right', s')) :
    (o = .done → todo' = []) ∧ (o = .done ∨ todo'.length < todo.length) ∧ right'.len ≤ right.len := by
  induction todo generalizing kept s with
  | nil => cases h; exact ⟨fun _ => rfl, .inl rfl, Nat.le_refl _⟩
  | cons e rest ih =>
    have key : ∀ {k s}, DrainFilter.nextLP f k rest right s = .ok (o, kept', todo', right', s') →
        (o = .done → todo' = []) ∧ (o = .done ∨ todo'.length < (e :: rest).length) ∧ right'.len ≤ right.len := by
      intro k s h
      obtain ⟨h1, h2, h3⟩ := ih h
      exact ⟨h1, h2.imp id fun h => Nat.lt_succ_of_lt h, h3⟩
    simp only [DrainFilter.nextLP] at h
    split at h
    · split at h
      · cases h
      · rename_i hrem
        split at h
        · cases h; exact ⟨fun h => (by cases h), .inr (Nat.lt_succ_self _), Nat.le_refl _⟩
        · cases h; exact ⟨fun h => (by cases h), .inr (Nat.lt_succ_self _), removeEntry_len hrem⟩
        · exact key h
    · split at h
      · cases h; exact ⟨fun h => (by cases h), .inr (Nat.lt_succ_self _), Nat.le_refl _⟩
      · cases h; exact ⟨fun h => (by cases h), .inr (Nat.lt_succ_self _), Nat.le_refl _⟩
      · exact key h

theorem nextRP_done {σ : Type} {f : σ → OptionalPair L R → Option Bool × σ} {kept todo : List (UInt64 × MappingPair R)} {s : σ}
    {kept' todo' s'} (h : DrainFilter.nextRP f kept todo s = (.done, kept', todo', s')) : todo' = [] := by
  induction todo generalizing kept s with
  | nil => cases h; rfl
  | cons e rest ih =>
    simp only [DrainFilter.nextRP] at h
    split at h
    · cases h
    · cases h
    · exact ih h

/-- the guarded closure makes `next` do the same, and go on after a panic -/
theorem nextP_sim {σ : Type} (f : σ → OptionalPair L R → Option Bool × σ) (it : DrainFilter σ L R) (k : Nat) {md : Mode}
    (hm : md ≠ .stopped) :
    DrainFilter.next (guarded f) (it.lift k md) =
      match DrainFilter.nextP f it with
      | .error e => .error e
      | .ok (.done, it') => .ok (none, it'.lift k md)
      | .ok (.item y, it') => .ok (some y, it'.lift (md.left k) md)
      | .ok (.panic, it') => DrainFilter.next (guarded f) (it'.lift k (md.hit k)) := by
  obtain ⟨kL, tL, rt, res, kR, tR, st⟩ := it
  unfold DrainFilter.next DrainFilter.nextP
  simp only [DrainFilter.lift, nextLP_sim f _ _ _ _ _ hm]
  cases hL : DrainFilter.nextLP f kL tL rt st with
  | error e => rfl
  | ok v =>
    obtain ⟨o, kept', todo', right', s'⟩ := v
    cases o with
    | item y => rfl
    | panic => rfl
    | done =>
      cases res with
      | true =>
        simp only [bind, Except.bind, pure, Except.pure, if_true, nextRP_sim f _ _ _ _ hm]
        cases hR : DrainFilter.nextRP f [] right'.entries s' with
        | mk o v =>
          obtain ⟨kr', tr', s''⟩ := v
          cases o with
          | item y => rfl
          | done => rfl
          | panic => simp [DrainFilter.nextL]
      | false =>
        simp only [bind, Except.bind, pure, Except.pure, Bool.false_eq_true, if_false, nextRP_sim f _ _ _ _ hm]
        cases hR : DrainFilter.nextRP f kR tR s' with
        | mk o v =>
          obtain ⟨kr', tr', s''⟩ := v
          cases o with
          | item y => rfl
          | done => rfl
          | panic => simp [DrainFilter.nextL]

theorem nextP_done {σ : Type} {f : σ → OptionalPair L R → Option Bool × σ} {it it' : DrainFilter σ L R}
    (h : DrainFilter.nextP f it = .ok (.done, it')) : it'.reset = false ∧ DrainFilter.nextP f it' = .ok (.done, it') := by
  obtain ⟨kL, tL, rt, res, kR, tR, st⟩ := it
  unfold DrainFilter.nextP at h
  simp only at h
  have fin : ∀ {kr tr} {kept' : List (UInt64 × MappingPair L)} {right' : RawTable (MappingPair R)} {s'},
      (Except.ok ((DrainFilter.nextRP f kr tr s').1, (⟨kept', [], right', false, (DrainFilter.nextRP f kr tr s').2.1,
        (DrainFilter.nextRP f kr tr s').2.2.1, (DrainFilter.nextRP f kr tr s').2.2.2⟩ : DrainFilter σ L R)) :
        Res (Next L R × DrainFilter σ L R)) = .ok (.done, it') →
      it'.reset = false ∧ DrainFilter.nextP f it' = .ok (.done, it') := by
    intro kr tr kept' right' s' h
    cases hR : DrainFilter.nextRP f kr tr s' with
    | mk o v =>
      obtain ⟨kr', tr', s''⟩ := v
      rw [hR] at h
      cases h
      cases nextRP_done hR
      refine ⟨rfl, ?_⟩
      simp [DrainFilter.nextP, DrainFilter.nextLP, DrainFilter.nextRP, bind, Except.bind, pure, Except.pure]
  cases hL : DrainFilter.nextLP f kL tL rt st with
  | error e => rw [hL] at h; cases h
  | ok v =>
    obtain ⟨o, kept', todo', right', s'⟩ := v
    rw [hL] at h
    cases o with
    | item y => cases h
    | panic => cases h
    | done => cases res <;> exact fin h

/-- the caller's calls -/
theorem takeP_user {σ : Type} {f : σ → OptionalPair L R → Option Bool × σ} (n : Nat) {it : DrainFilter σ L R} {ys fin}
    (h : Yields (guarded f) (it.lift n .calm) ys fin) :
    ∃ ps b it', DrainFilter.takeP f n it = .ok (ps, b, it') ∧
      ((b = false ∧ ps = ys.take n ∧ Yields (guarded f) (it'.lift (n - ps.length) .calm) (ys.drop n) fin ∧
        (n = ps.length ∨ DrainFilter.nextP f it' = .ok (.done, it') ∧ it'.reset = false)) ∨
       (b = true ∧ ps <+: ys ∧ ps.length < n ∧
        Yields (guarded f) (it'.lift (n - ps.length) .unwinding) (ys.drop ps.length) fin)) := by
  induction n generalizing it ys with
  | zero => exact ⟨[], false, it, rfl, .inl ⟨rfl, rfl, h, .inl rfl⟩⟩
  | succ n ih =>
    have hs := nextP_sim f it (n + 1) (md := .calm) (by decide)
    cases hn : DrainFilter.nextP f it with
    | error e =>
      rw [hn] at hs
      cases h with
      | done h1 _ => rw [hs] at h1; cases h1
      | step h1 _ => rw [hs] at h1; cases h1
    | ok v =>
      obtain ⟨o, it'⟩ := v
      rw [hn] at hs
      cases o with
      | done =>
        obtain ⟨hr, hd⟩ := nextP_done hn
        cases h with
        | step h1 _ => rw [hs] at h1; cases h1
        | done h1 h2 =>
          rw [hs] at h1; cases h1
          refine ⟨[], false, it', by simp only [DrainFilter.takeP, hn, bind, Except.bind]; rfl,
            .inl ⟨rfl, rfl, .done h2 h2, .inr ⟨hd, hr⟩⟩⟩
      | item y =>
        cases h with
        | done h1 _ => rw [hs] at h1; cases h1
        | step h1 h2 =>
          rw [hs] at h1; cases h1
          obtain ⟨ps, b, it'', e, h3⟩ := ih h2
          refine ⟨y :: ps, b, it'', by simp only [DrainFilter.takeP, hn, bind, Except.bind, e]; rfl, ?_⟩
          rcases h3 with ⟨hb, hp, hy, ho⟩ | ⟨hb, hp, hlt, hy⟩
          · refine .inl ⟨hb, by simp [hp], ?_, ?_⟩
            · rw [List.length_cons, Nat.add_sub_add_right]; exact hy
            · simp only [List.length_cons, Nat.add_right_cancel_iff]; exact ho
          · refine .inr ⟨hb, List.cons_prefix_cons.2 ⟨rfl, hp⟩, by simpa using hlt, ?_⟩
            rw [List.length_cons, Nat.add_sub_add_right]; exact hy
      | panic =>
        refine ⟨[], true, it', by simp only [DrainFilter.takeP, hn, bind, Except.bind]; rfl,
          .inr ⟨rfl, List.nil_prefix, by simp, ?_⟩⟩
        exact (h.congr hs.symm)

theorem next_stopped {σ : Type} {f : σ → OptionalPair L R → Option Bool × σ} {it : DrainFilter σ L R} {k : Nat} {o fin}
    (h : DrainFilter.next (guarded f) (it.lift k .stopped) = .ok (o, fin)) :
    o = none ∧ fin.keptL ++ fin.todoL = it.keptL ++ it.todoL ∧ fin.right = it.right ∧
      fin.keptR ++ fin.todoR = it.rightEntries ∧ fin.st = (it.st, k, .stopped) := by
  have hL : ∀ (kept todo : List (UInt64 × MappingPair L)) (right : RawTable (MappingPair R)) (s : σ) {v},
      DrainFilter.nextL (guarded f) kept todo right (s, k, .stopped) = .ok v →
      v = (none, kept ++ todo, [], right, (s, k, .stopped)) := by
    intro kept todo right s v h
    induction todo generalizing kept with
    | nil => cases h; simp
    | cons e rest ih =>
      simp only [DrainFilter.nextL, guarded] at h
      split at h
      · split at h
        · cases h
        · rw [ih _ h]; simp
      · rw [ih _ h]; simp
  have hR : ∀ (kept todo : List (UInt64 × MappingPair R)) (s : σ),
      DrainFilter.nextR (L := L) (guarded f) kept todo (s, k, .stopped) = (none, kept ++ todo, [], (s, k, .stopped)) := by
    intro kept todo s
    induction todo generalizing kept with
    | nil => simp [DrainFilter.nextR]
    | cons e rest ih => simp only [DrainFilter.nextR, guarded, ih]; simp
  obtain ⟨kL, tL, rt, res, kR, tR, st⟩ := it
  unfold DrainFilter.next at h
  simp only [DrainFilter.lift] at h
  obtain ⟨v, h1, h2⟩ := CycleMap.bind_ok h
  cases hL _ _ _ _ h1
  simp only [hR] at h2
  cases res <;> cases h2 <;> simp [DrainFilter.rightEntries]

/-- what `Drop` does, up to its end or its first panic -/
theorem takeP_drop {σ : Type} {f : σ → OptionalPair L R → Option Bool × σ} {N : Nat} {it : DrainFilter σ L R} {k : Nat}
    {md : Mode} {ys fin} (h : Yields (guarded f) (it.lift k md) ys fin) (hm : md ≠ .stopped) (hh : md.hit k = .stopped)
    (hk : md.left k = k) (hN : ys.length < N) :
    ∃ ps b it', DrainFilter.takeP f N it = .ok (ps, b, it') ∧
      fin.st = (it'.st, k, if b then .stopped else md) ∧ fin.keptL ++ fin.todoL = it'.keptL ++ it'.todoL ∧
      fin.right = it'.right ∧ fin.keptR ++ fin.todoR = it'.rightEntries ∧ ps = ys := by
  induction N generalizing it ys with
  | zero => omega
  | succ N ih =>
    have hs := nextP_sim f it k hm
    cases hn : DrainFilter.nextP f it with
    | error e =>
      rw [hn] at hs
      cases h with
      | done h1 _ => rw [hs] at h1; cases h1
      | step h1 _ => rw [hs] at h1; cases h1
    | ok v =>
      obtain ⟨o, it'⟩ := v
      rw [hn] at hs
      cases o with
      | done =>
        obtain ⟨hr, hd⟩ := nextP_done hn
        cases h with
        | step h1 _ => rw [hs] at h1; cases h1
        | done h1 h2 =>
          rw [hs] at h1; cases h1
          refine ⟨[], false, it', by simp only [DrainFilter.takeP, hn, bind, Except.bind]; rfl, rfl, rfl, rfl, ?_, rfl⟩
          simp [DrainFilter.rightEntries, hr, DrainFilter.lift]
      | item y =>
        cases h with
        | done h1 _ => rw [hs] at h1; cases h1
        | step h1 h2 =>
          rw [hs, hk] at h1; cases h1
          obtain ⟨ps, b, it'', e, h3, h4, h5, h6, rfl⟩ := ih h2 (by simpa using hN)
          exact ⟨y :: ps, b, it'', by simp only [DrainFilter.takeP, hn, bind, Except.bind, e]; rfl, h3, h4, h5, h6, rfl⟩
      | panic =>
        simp only [hh] at hs
        refine ⟨[], true, it', by simp only [DrainFilter.takeP, hn, bind, Except.bind]; rfl, ?_⟩
        cases h with
        | done h1 _ =>
          rw [hs] at h1
          obtain ⟨_, h2, h3, h4, h5⟩ := next_stopped h1
          exact ⟨h5, h2, h3, h4, rfl⟩
        | step h1 _ =>
          rw [hs] at h1
          cases (next_stopped h1).1

/-- the panics so far -/
def Mode.count (k : Nat) : Mode → Nat
  | .calm => 0
  | .unwinding => 1
  | .stopped => if k = 0 then 1 else 2

theorem split_stopped {σ α : Type} (f : σ → α → Option Bool × σ) (d : List α) (s : σ) (k : Nat) :
    split (guarded f) d (s, k, .stopped) = ([], d, (s, k, .stopped)) := by
  induction d with
  | nil => rfl
  | cons a d ih => simp [split, guarded, ih]

/-- the guarded closure, run over `d`, visits a part of it -/
theorem split_guarded {σ α : Type} (f : σ → α → Option Bool × σ) (d : List α) (s : σ) (k : Nat) (md : Mode)
    (hk : md = .unwinding → k ≠ 0) :
    ∃ v w k' md', d = v ++ w ∧ split (guarded f) d (s, k, md) =
        ((split (calm f) v s).1, (split (calm f) v s).2.1 ++ w, ((split (calm f) v s).2.2, k', md')) ∧
      (w = [] ∨ md' = .stopped) ∧ panics f v s + md.count k = md'.count k' ∧ (md = .stopped → v = [] ∧ md' = .stopped) ∧
      (md' = .unwinding → k' ≠ 0) := by
  induction d generalizing s k md with
  | nil => exact ⟨[], [], k, md, rfl, rfl, .inl rfl, Nat.zero_add _, fun h => ⟨rfl, h⟩, hk⟩
  | cons a d ih =>
    by_cases hm : md = .stopped
    · subst hm
      exact ⟨[], a :: d, k, .stopped, rfl, split_stopped _ _ _ _, .inr rfl, Nat.zero_add _, fun _ => ⟨rfl, rfl⟩, by simp⟩
    · cases hf : f s a with
      | mk b s' =>
        match b with
        | none =>
          obtain ⟨v, w, k', md', h1, h2, h3, h4, h5, h6⟩ := ih s' k (md.hit k) (by
            cases md <;> simp only [Mode.hit] <;> (try split) <;> simp_all)
          refine ⟨a :: v, w, k', md', by simp [h1], ?_, h3, ?_, fun h => absurd h hm, h6⟩
          · simp [split, guarded_panic hf hm, calm, hf, h2]
          · rw [← h4]
            simp only [panics, hf, Option.isNone_none, if_true]
            have : 1 + md.count k = (md.hit k).count k := by
              cases md with
              | calm => by_cases hk0 : k = 0 <;> simp [Mode.hit, Mode.count, hk0]
              | unwinding => simp [Mode.hit, Mode.count, hk rfl]
              | stopped => exact absurd rfl hm
            omega
        | some true =>
          obtain ⟨v, w, k', md', h1, h2, h3, h4, h5, h6⟩ := ih s' (md.left k) md (by
            intro h; subst h; exact hk rfl)
          refine ⟨a :: v, w, k', md', by simp [h1], ?_, h3, ?_, fun h => absurd h hm, h6⟩
          · simp [split, guarded_true hf hm, calm, hf, h2]
          · rw [← h4]
            simp only [panics, hf, Option.isNone_some]
            have : md.count k = md.count (md.left k) := by
              cases md with
              | stopped => exact absurd rfl hm
              | _ => rfl
            simp; omega
        | some false =>
          obtain ⟨v, w, k', md', h1, h2, h3, h4, h5, h6⟩ := ih s' k md hk
          refine ⟨a :: v, w, k', md', by simp [h1], ?_, h3, ?_, fun h => absurd h hm, h6⟩
          · simp [split, guarded_false hf hm, calm, hf, h2]
          · rw [← h4]
            simp only [panics, hf, Option.isNone_some]
            simp

/-- the panics an ending stands for -/
def panicsOf : Ending → Nat
  | .returned => 0
  | .panicked => 1
  | .aborted => 2

theorem drainFilterP_of_yields {σ : Type} {f : σ → OptionalPair L R → Option Bool × σ} {s : σ} {n : Nat} {ys fin}
    (h : Yields (guarded f) ⟨[], m.left.entries, m.right, true, [], [], (s, n, .calm)⟩ ys fin) :
    ∃ (e : Ending) (ps : List (OptionalPair L R)), m.drainFilterP f s n = .ok (e, ps, fin.st.1,
      { m with left := RawImpl.touch (.erase (stays m.left (fin.keptL ++ fin.todoL))) { m.left with entries := fin.keptL ++ fin.todoL },
               right := RawImpl.touch (.erase (stays fin.right (fin.keptR ++ fin.todoR))) { fin.right with entries := fin.keptR ++ fin.todoR } }) ∧
      ps <+: ys ∧ ps.length ≤ n ∧ (e = .returned → ps = ys.take n) ∧ panicsOf e = fin.st.2.2.count fin.st.2.1 ∧
      (e = .aborted → ps.length < n) ∧ (e = .panicked → fin.st.2.2 = .stopped → ps.length = n) ∧
      ∃ dropped b it b' it', DrainFilter.takeP f n ⟨[], m.left.entries, m.right, true, [], [], s⟩ = .ok (ps, b, it) ∧
        DrainFilter.takeP f (it.todoL.length + it.right.len + it.todoR.length + 1) it = .ok (dropped, b', it') ∧
        ys = ps ++ dropped := by
  let it0 : DrainFilter σ L R :=
    { keptL := [], todoL := m.left.entries, right := m.right, reset := true, keptR := [], todoR := [], st := s }
  obtain ⟨ps, b, it, e1, h1⟩ := takeP_user (f := f) n (it := it0) h
  have fuel : ∀ {k md ys'}, Yields (guarded f) (it.lift k md) ys' fin →
      ys'.length < it.todoL.length + it.right.len + it.todoR.length + 1 := by
    intro k md ys' hy
    have := hy.length
    unfold DrainFilter.measure at this
    simp only [DrainFilter.lift] at this
    cases hres : it.reset <;> simp only [hres, if_true, Bool.false_eq_true, if_false] at this <;> omega
  have ok : ∀ {ps' b' it'}, DrainFilter.takeP f (it.todoL.length + it.right.len + it.todoR.length + 1) it = .ok (ps', b', it') →
      m.drainFilterP f s n = .ok (if b then (if b' then .aborted else .panicked) else (if b' then .panicked else .returned), ps,
        it'.st, { m with left := RawImpl.touch (.erase (stays m.left (it'.keptL ++ it'.todoL))) { m.left with entries := it'.keptL ++ it'.todoL },
                         right := RawImpl.touch (.erase (stays it'.right it'.rightEntries)) { it'.right with entries := it'.rightEntries } }) := by
    intro ps' b' it' e2
    have e1 : DrainFilter.takeP f n ⟨[], m.left.entries, m.right, true, [], [], s⟩ = .ok (ps, b, it) := e1
    simp only [drainFilterP, e1, bind, Except.bind, e2]; rfl
  rcases h1 with ⟨rfl, hp, hy, ho⟩ | ⟨rfl, hp, hlt, hy⟩
  · have hlen : ps.length ≤ n := by rw [hp]; exact List.length_take_le _ _
    have hpre : ps <+: ys := by rw [hp]; exact List.take_prefix _ _
    rcases ho with ho | ⟨hd, hr⟩
    · rw [← ho, Nat.sub_self] at hy
      obtain ⟨ps', b', it', e2, h2, h3, h4, h5, h6⟩ := takeP_drop hy (by decide) rfl rfl (fuel hy)
      refine ⟨if b' then .panicked else .returned, ps, ?_, hpre, hlen, fun _ => hp, ?_⟩
      · rw [ok e2, h3, h4, h5, h2]; rfl
      · rw [h2]; exact ⟨by cases b' <;> rfl, by cases b' <;> simp, fun _ _ => ho.symm, ps', false, it, b', it', e1, e2, by
          rw [h6]; conv => lhs; rw [← List.take_append_drop n ys, ← hp]⟩
    · have e2 : DrainFilter.takeP f (it.todoL.length + it.right.len + it.todoR.length + 1) it = .ok ([], false, it) := by
        simp only [DrainFilter.takeP, hd, bind, Except.bind]; rfl
      have hs := nextP_sim f it (n - ps.length) (md := .calm) (by decide)
      rw [hd] at hs
      have hfin : fin = it.lift (n - ps.length) .calm ∧ ys.drop n = [] := by
        generalize ys.drop n = zs at hy
        cases hy with
        | done h1 _ => rw [hs] at h1; cases h1; exact ⟨rfl, rfl⟩
        | step h1 _ => rw [hs] at h1; cases h1
      obtain ⟨hfin, hnil⟩ := hfin
      subst hfin
      refine ⟨.returned, ps, ?_, hpre, hlen, fun _ => hp, ?_⟩
      · rw [ok e2]
        simp only [DrainFilter.lift, DrainFilter.rightEntries, hr]; rfl
      · exact ⟨rfl, by simp, by simp, [], false, it, false, it, e1, e2, by
          conv => lhs; rw [← List.take_append_drop n ys, ← hp, hnil]⟩
  · have hk : n - ps.length ≠ 0 := by omega
    obtain ⟨ps', b', it', e2, h2, h3, h4, h5, h6⟩ := takeP_drop hy (by decide) rfl rfl (fuel hy)
    refine ⟨if b' then .aborted else .panicked, ps, ?_, hp, Nat.le_of_lt hlt, ?_, ?_⟩
    · rw [ok e2, h3, h4, h5, h2]; rfl
    · intro h; cases b' <;> simp at h
    · rw [h2]; exact ⟨by cases b' <;> simp [panicsOf, Mode.count, hk], fun _ => hlt, by cases b' <;> simp, ps', true, it, b', it', e1, e2, by
        rw [h6, ← List.prefix_iff_eq_append.1 hp]; simp⟩

theorem drainFilterP_takes {σ : Type} (h : Repr m c) (f : σ → OptionalPair L R → Option Bool × σ) (s : σ) (n : Nat)
    (hsafe : ∀ s l r, someBoth l r ∈ c → (f s (someRight r)).1 ≠ some true) :
    ∃ (e : Ending) (v1 w1 us v2 w2 ps : List (OptionalPair L R)) (m' : PartialMap L R),
      (v1 ++ w1 ++ us).Perm c ∧ (∀ x ∈ v1 ++ w1, (leftOf x).isSome = true) ∧ (∀ x ∈ us, leftOf x = none) ∧
      (v2 ++ w2 ++ ((split (calm f) v1 s).2.1 ++ w1).filter fun e => (rightOf e).isNone).Perm
        ((split (calm f) v1 s).2.1 ++ w1 ++ us) ∧
      (∀ x ∈ v2 ++ w2, (rightOf x).isSome = true) ∧
      m.drainFilterP f s n =
        .ok (e, ps, (split (calm fun s x => f s (asRight x)) v2 (split (calm f) v1 s).2.2).2.2, m') ∧
      ps <+: (split (calm f) v1 s).1 ++ (split (calm fun s x => f s (asRight x)) v2 (split (calm f) v1 s).2.2).1.map asRight ∧
      ps.length ≤ n ∧
      Repr m' ((split (calm fun s x => f s (asRight x)) v2 (split (calm f) v1 s).2.2).2.1 ++ w2 ++
          ((split (calm f) v1 s).2.1 ++ w1).filter fun e => (rightOf e).isNone) ∧
      m'.hb = m.hb ∧ panicsOf e = panics f v1 s + panics (fun s x => f s (asRight x)) v2 (split (calm f) v1 s).2.2 ∧
      (e = .returned → w1 = [] ∧ w2 = [] ∧ ps = ((split (calm f) v1 s).1 ++
        (split (calm fun s x => f s (asRight x)) v2 (split (calm f) v1 s).2.2).1.map asRight).take n) ∧
      (w1 ≠ [] → v2 = []) ∧ (e = .aborted → ps.length < n) ∧
      (e = .panicked → w1 ≠ [] ∨ w2 ≠ [] → ps.length = n) ∧
      ∃ dropped b it b' it', DrainFilter.takeP f n ⟨[], m.left.entries, m.right, true, [], [], s⟩ = .ok (ps, b, it) ∧
        DrainFilter.takeP f (it.todoL.length + it.right.len + it.todoR.length + 1) it = .ok (dropped, b', it') ∧
        (split (calm f) v1 s).1 ++ (split (calm fun s x => f s (asRight x)) v2 (split (calm f) v1 s).2.2).1.map asRight =
          ps ++ dropped := by
  obtain ⟨ys, fin, hy⟩ : ∃ ys fin, Yields (guarded f) ⟨[], m.left.entries, m.right, true, [], [], (s, n, .calm)⟩ ys fin := by
    obtain ⟨qs, us, -, hr, he, hs, -⟩ := h.ordered
    obtain ⟨t1, -, y1⟩ := yields_left (hb := m.hb) (ks := []) (guarded f) (s, n, .calm) (by simpa using hr.right)
      (by simpa using apart_ids hr.apart) hs
    exact ⟨_, _, by rw [he]; exact y1⟩
  obtain ⟨d1, us, d2, m', h1, h2, h3, h4, h5, e1, -, -, -, -, -, h6⟩ :=
    drainFilterTake_refines h (guarded f) (s, n, .calm) (ys.length + 1)
  have e2 := drainFilterTake_of_yields (m := m) hy (ys.length + 1)
  rw [e2] at e1
  have h6 := h6 (by
    rintro ⟨s, k, md⟩ l r hm
    have := hsafe s l r hm
    cases hf : f s (someRight r) with
    | mk b s' =>
      rw [hf] at this
      cases md <;> match b, hf, this with
        | none, hf, _ => simp [guarded, hf]
        | some false, hf, _ => simp [guarded, hf])
  obtain ⟨v1, w1, k1, md1, g1, g2, g3, g4, -, g6⟩ := split_guarded f d1 s n .calm (by simp)
  obtain ⟨v2, w2, k2, md2, i1, i2, i3, i4, i5, -⟩ :=
    split_guarded (fun s x => f s (asRight x)) d2 (split (calm f) v1 s).2.2 k1 md1 g6
  have hgu : (fun (s : σ × Nat × Mode) x => guarded f s (asRight x)) = guarded (fun s (x : OptionalPair L R) => f s (asRight x)) := by
    funext ⟨s, k, md⟩ x
    cases md <;> rfl
  rw [g2] at e1 h4 h6
  simp only at e1 h4 h6
  rw [hgu, i2] at e1 h6
  simp only at e1 h6
  have hys : ys = (split (calm f) v1 s).1 ++ (split (calm fun s x => f s (asRight x)) v2 (split (calm f) v1 s).2.2).1.map asRight := by
    have := congrArg (fun x => x.map (·.1)) e1
    simp only [Except.map, Except.ok.injEq] at this
    rw [List.take_of_length_le (Nat.le_succ _)] at this
    have hl := congrArg List.length this
    rw [List.length_take] at hl
    rw [List.take_of_length_le (by omega)] at this
    exact this
  have hst : fin.st = ((split (calm fun s x => f s (asRight x)) v2 (split (calm f) v1 s).2.2).2.2, k2, md2) := by
    have := congrArg (fun x => x.map (·.2.1)) e1
    simp only [Except.map, Except.ok.injEq] at this
    exact this
  have hmap := congrArg (fun x => x.map (·.2.2)) e1
  simp only [Except.map, Except.ok.injEq] at hmap
  obtain ⟨e, ps, e3, hp, hle, hret, hcount, hab, hpk, dr, tb, tit, tb', tit', t1, t2, t3⟩ := drainFilterP_of_yields hy
  rw [hst] at hcount e3 hpk
  rw [hmap] at e3
  simp only at hcount e3
  have hcnt : panicsOf e = panics f v1 s + panics (fun s x => f s (asRight x)) v2 (split (calm f) v1 s).2.2 := by
    rw [hcount, ← i4, ← g4]; simp [Mode.count]; omega
  refine ⟨e, v1, w1, us, v2, w2, ps, m', ?_, ?_, h3, ?_, ?_, e3, ?_, hle, h6, by rw [← hmap], hcnt, ?_, ?_, hab, fun he hw => hpk he ?_, dr, tb, tit, tb', tit', t1, t2, hys ▸ t3⟩
  · rw [← g1]; exact h1
  · rw [← g1]; exact h2
  · rw [← i1]; exact h4
  · rw [← i1]; exact h5
  · rw [← hys]; exact hp
  · intro he
    have hz := hcount
    rw [he] at hz
    have hm2 : md2 = .calm := by
      revert hz
      cases md2 with
      | calm => exact fun _ => rfl
      | unwinding => intro h; cases h
      | stopped => simp only [panicsOf, Mode.count]; split <;> intro h <;> cases h
    have hm1 : md1 ≠ .stopped := by
      rintro rfl
      have : Mode.count k1 .stopped = 0 := by
        have := i4
        rw [hm2] at this
        simp only [Mode.count] at this ⊢
        omega
      simp only [Mode.count] at this
      split at this <;> cases this
    refine ⟨g3.resolve_right hm1, i3.resolve_right (by rw [hm2]; decide), ?_⟩
    rw [← hys]; exact hret he
  · intro hw
    exact (i5 (g3.resolve_left hw)).1
  · rcases hw with hw | hw
    · exact (i5 (g3.resolve_left hw)).2
    · exact i3.resolve_left hw

theorem drainFilterP_refines {σ : Type} (h : Repr m c) (f : σ → OptionalPair L R → Option Bool × σ) (s : σ) (n : Nat)
    (hsafe : ∀ s l r, someBoth l r ∈ c → (f s (someRight r)).1 ≠ some true) :
    ∃ (e : Ending) (v1 w1 us v2 w2 ps : List (OptionalPair L R)) (m' : PartialMap L R),
      (v1 ++ w1 ++ us).Perm c ∧ (∀ x ∈ v1 ++ w1, (leftOf x).isSome = true) ∧ (∀ x ∈ us, leftOf x = none) ∧
      (v2 ++ w2 ++ ((split (calm f) v1 s).2.1 ++ w1).filter fun e => (rightOf e).isNone).Perm
        ((split (calm f) v1 s).2.1 ++ w1 ++ us) ∧
      (∀ x ∈ v2 ++ w2, (rightOf x).isSome = true) ∧
      m.drainFilterP f s n =
        .ok (e, ps, (split (calm fun s x => f s (asRight x)) v2 (split (calm f) v1 s).2.2).2.2, m') ∧
      ps <+: (split (calm f) v1 s).1 ++ (split (calm fun s x => f s (asRight x)) v2 (split (calm f) v1 s).2.2).1.map asRight ∧
      ps.length ≤ n ∧
      Repr m' ((split (calm fun s x => f s (asRight x)) v2 (split (calm f) v1 s).2.2).2.1 ++ w2 ++
          ((split (calm f) v1 s).2.1 ++ w1).filter fun e => (rightOf e).isNone) ∧
      m'.hb = m.hb ∧ panicsOf e = panics f v1 s + panics (fun s x => f s (asRight x)) v2 (split (calm f) v1 s).2.2 ∧
      (e = .returned → w1 = [] ∧ w2 = [] ∧ ps = ((split (calm f) v1 s).1 ++
        (split (calm fun s x => f s (asRight x)) v2 (split (calm f) v1 s).2.2).1.map asRight).take n) ∧
      (w1 ≠ [] → v2 = []) ∧ (e = .aborted → ps.length < n) ∧
      (e = .panicked → w1 ≠ [] ∨ w2 ≠ [] → ps.length = n) := by
  obtain ⟨e, v1, w1, us, v2, w2, ps, m', g1, g2, g3, g4, g5, g6, g7, g8, g9, g10, g11, g12, g13, g14, g15, -⟩ :=
    drainFilterP_takes h f s n hsafe
  exact ⟨e, v1, w1, us, v2, w2, ps, m', g1, g2, g3, g4, g5, g6, g7, g8, g9, g10, g11, g12, g13, g14, g15⟩

end Verif.PartialMap
