import Verif.Unwind
import Verif.PartialMap.Always
import Verif.PartialMap.Panics
/-
The calls of `PartialCycleMap` with panics that unwind (see `Verif.Unwind`): `/repo/src/partial_cycle_map.rs` once more,
now with the places at which the items' own `Hash` and `Eq` run, and with the map as it is at every point.
-/
set_option linter.unusedSectionVars false
set_option linter.unusedSimpArgs false
namespace Verif.PartialMap
open PartialSpec OptionalPair Unw

section
variable [RawImpl] {L R : Type} [BEq L] [BEq R]

/-- `are_paired` — 611-622: two hashes, two probes -/
def arePairedU (left : L) (right : R) : Unw (PartialMap L R) Bool := do
  user
  user
  user
  user
  return (← get).arePaired left right

/-- `remove_via_left` — 718-737 -/
def removeViaLeftU (item : L) : Unw (PartialMap L R) (OptionalPair L R) := do
  user
  user
  let m ← get
  let lHash := m.hb.hl item
  match m.left.removeEntry lHash (equivalentKey item) with
  | none => return neither
  | some (lp, left') =>
    set { m with left := left' }
    match lp.hash with
    | some hash =>
      match m.right.removeEntry hash (hashAndId lHash lp.id) with
      | none => fail .unwrapNone
      | some (rp, right') =>
        set { m with left := left', right := right' }
        return ofPair (some lp.value, some rp.value)
    | none => return ofPair (some lp.value, none)

/-- `remove_via_right` — 776-795 -/
def removeViaRightU (item : R) : Unw (PartialMap L R) (OptionalPair L R) := do
  user
  user
  let m ← get
  let rHash := m.hb.hr item
  match m.right.removeEntry rHash (equivalentKey item) with
  | none => return neither
  | some (rp, right') =>
    set { m with right := right' }
    match rp.hash with
    | some hash =>
      match m.left.removeEntry hash (hashAndId rHash rp.id) with
      | none => fail .unwrapNone
      | some (lp, left') =>
        set { m with left := left', right := right' }
        return ofPair (some lp.value, some rp.value)
    | none => return ofPair (none, some rp.value)

/-- `remove` — 671-678 -/
def removeU (left : L) (right : R) : Unw (PartialMap L R) (Option (L × R)) := do
  if ← arePairedU left right then
    let o ← removeViaLeftU left
    match o.toOption with
    | none => return none
    | some (some l, some r) => return some (l, r)
    | some _ => fail .unwrapNone
  else return none

/-- `remove_left` — 693-700 -/
def removeLeftU (item : L) : Unw (PartialMap L R) (Option L) := do
  user
  user
  let m ← get
  match m.left.removeEntry (m.hb.hl item) (equivalentKey item) with
  | none => return none
  | some (lp, left') =>
    set { m with left := left' }
    match lp.hash with
    | some hash =>
      match m.right.getMut hash (justId lp.id) with
      | none => fail .unwrapNone
      | some (rp, write) =>
        set { m with left := left', right := write { rp with hash := none } }
        return some lp.value
    | none => return some lp.value

/-- `remove_right` — 752-759 -/
def removeRightU (item : R) : Unw (PartialMap L R) (Option R) := do
  user
  user
  let m ← get
  match m.right.removeEntry (m.hb.hr item) (equivalentKey item) with
  | none => return none
  | some (rp, right') =>
    set { m with right := right' }
    match rp.hash with
    | some hash =>
      match m.left.getMut hash (justId rp.id) with
      | none => fail .unwrapNone
      | some (lp, write) =>
        set { m with left := write { lp with hash := none }, right := right' }
        return some rp.value
    | none => return some rp.value

/-- `insert` — 162-190 -/
def insertU (left : L) (right : R) : Unw (PartialMap L R) (OptionalPair L R × OptionalPair L R) := do
  let optFromLeft ← removeViaLeftU left
  let optFromRight ← removeViaRightU right
  user
  user
  let m ← get
  let lHash := m.hb.hl left
  let rHash := m.hb.hr right
  let leftPairing : MappingPair L := { value := left, hash := some rHash, id := m.counter }
  let rightPairing : MappingPair R := { value := right, hash := some lHash, id := m.counter }
  let m := { m with counter := m.counter + 1 }
  m.left.insertU lHash leftPairing (·.hashWith m.hb.hl) (fun t => { m with left := t })
  let m ← get
  m.right.insertU rHash rightPairing (·.hashWith m.hb.hr) (fun t => { m with right := t })
  return (optFromLeft, optFromRight)

/-- `insert_left` — 222-238 -/
def insertLeftU (left : L) : Unw (PartialMap L R) (OptionalPair L R) := do
  let optFromLeft ← removeViaLeftU left
  user
  let m ← get
  let leftPairing : MappingPair L := { value := left, hash := none, id := m.counter }
  let lHash := m.hb.hl left
  let m := { m with counter := m.counter + 1 }
  m.left.insertU lHash leftPairing (·.hashWith m.hb.hl) (fun t => { m with left := t })
  return optFromLeft

/-- `insert_right` — 269-285 -/
def insertRightU (right : R) : Unw (PartialMap L R) (OptionalPair L R) := do
  let optFromRight ← removeViaRightU right
  user
  let m ← get
  let rightPairing : MappingPair R := { value := right, hash := none, id := m.counter }
  let rHash := m.hb.hr right
  let m := { m with counter := m.counter + 1 }
  m.right.insertU rHash rightPairing (·.hashWith m.hb.hr) (fun t => { m with right := t })
  return optFromRight

/-- `pair` — 312-329: no user code after the two probes -/
def pairU (left : L) (right : R) : Unw (PartialMap L R) Bool := do
  user
  user
  user
  user
  let m ← get
  set (m.pair left right).2
  return (m.pair left right).1

/-- `unpair` — 550-572: no user code after the two probes -/
def unpairU (left : L) (right : R) : Unw (PartialMap L R) Bool := do
  user
  user
  user
  user
  let m ← get
  set (m.unpair left right).2
  return (m.unpair left right).1

/-- `pair_forced` — 360-429 -/
def pairForcedU (left : L) (right : R) : Unw (PartialMap L R) (OptionalPair L R) := do
  if ← arePairedU left right then return neither else
  user
  user
  user
  user
  let m ← get
  let lHash := m.hb.hl left
  let rHash := m.hb.hr right
  match m.left.getMut lHash (equivalentKey left), m.right.getMut rHash (equivalentKey right) with
  | some (l, writeL), some (r, writeR) =>
    match l.hash, r.hash with
    | none, none =>
      set { m with left := writeL { l with hash := some rHash },
                   right := writeR { r with hash := some lHash, id := l.id } }
      return neither
    | some lpHash, none =>
      let left' := writeL { l with hash := some rHash, id := r.id }
      let right' := writeR { r with hash := some lHash }
      set { m with left := left', right := right' }
      match right'.getMut lpHash (hashAndId lHash l.id) with
      | none => fail .unwrapNone
      | some (r1, writeR1) =>
        let right'' := writeR1 { r1 with hash := none }
        set { m with left := left', right := right'' }
        match right''.get lpHash (justId l.id) with
        | none => fail .unwrapNone
        | some r2 => return someRight r2.value
    | none, some rpHash =>
      let left' := writeL { l with hash := some rHash }
      let right' := writeR { r with hash := some lHash, id := l.id }
      set { m with left := left', right := right' }
      match left'.getMut rpHash (hashAndId rHash r.id) with
      | none => fail .unwrapNone
      | some (l1, writeL1) =>
        let left'' := writeL1 { l1 with hash := none }
        set { m with left := left'', right := right' }
        match left''.get rpHash (justId r.id) with
        | none => fail .unwrapNone
        | some l2 => return someLeft l2.value
    | some lpHash, some rpHash =>
      let left' := writeL { l with hash := some rHash, id := m.counter }
      let right' := writeR { r with hash := some lHash, id := m.counter }
      set { m with counter := m.counter + 1, left := left', right := right' }
      match left'.getMut rpHash (hashAndId rHash r.id) with
      | none => fail .unwrapNone
      | some (l1, writeL1) =>
        let left'' := writeL1 { l1 with hash := none }
        set { m with counter := m.counter + 1, left := left'', right := right' }
        match right'.getMut lpHash (hashAndId lHash l.id) with
        | none => fail .unwrapNone
        | some (r1, writeR1) =>
          let right'' := writeR1 { r1 with hash := none }
          set { m with counter := m.counter + 1, left := left'', right := right'' }
          match left''.get rpHash (justId r.id), right''.get lpHash (justId l.id) with
          | some l2, some r2 => return someBoth l2.value r2.value
          | _, _ => fail .unwrapNone
  | _, _ => return neither

/-- `pair_forced_remove` — 461-528 -/
def pairForcedRemoveU (left : L) (right : R) : Unw (PartialMap L R) (OptionalPair L R) := do
  if ← arePairedU left right then return neither else
  user
  user
  user
  user
  let m ← get
  let lHash := m.hb.hl left
  let rHash := m.hb.hr right
  match m.left.getMut lHash (equivalentKey left), m.right.getMut rHash (equivalentKey right) with
  | some (l, writeL), some (r, writeR) =>
    match l.hash, r.hash with
    | none, none =>
      set { m with left := writeL { l with hash := some rHash },
                   right := writeR { r with hash := some lHash, id := l.id } }
      return neither
    | some lpHash, none =>
      let left' := writeL { l with hash := some rHash, id := r.id }
      let right' := writeR { r with hash := some lHash }
      set { m with left := left', right := right' }
      match right'.removeEntry lpHash (justId l.id) with
      | none => fail .unwrapNone
      | some (r1, right'') =>
        set { m with left := left', right := right'' }
        return someRight r1.value
    | none, some rpHash =>
      let left' := writeL { l with hash := some rHash }
      let right' := writeR { r with hash := some lHash, id := l.id }
      set { m with left := left', right := right' }
      match left'.removeEntry rpHash (hashAndId rHash r.id) with
      | none => fail .unwrapNone
      | some (l1, left'') =>
        set { m with left := left'', right := right' }
        return someLeft l1.value
    | some lpHash, some rpHash =>
      let left' := writeL { l with hash := some rHash, id := m.counter }
      let right' := writeR { r with hash := some lHash, id := m.counter }
      set { m with counter := m.counter + 1, left := left', right := right' }
      match left'.removeEntry rpHash (justId r.id) with
      | none => fail .unwrapNone
      | some (l1, left'') =>
        set { m with counter := m.counter + 1, left := left'', right := right' }
        match right'.removeEntry lpHash (justId l.id) with
        | none => fail .unwrapNone
        | some (r1, right'') =>
          set { m with counter := m.counter + 1, left := left'', right := right'' }
          return someBoth l1.value r1.value
  | _, _ => return neither

/-- `swap_left_eq_check` — 962-971 -/
def swapLeftEqCheckU (old new : L) (newHash : UInt64) : Unw (PartialMap L R) (OptionalPair L R) := do
  user
  let m ← get
  match m.left.get newHash (equivalentKey new) with
  | none => return neither
  | some _ =>
    user
    if new != old then removeViaLeftU new else return neither

/-- `swap_left` — 842-887 -/
def swapLeftU (old new : L) : Unw (PartialMap L R) (OptionalPair L (OptionalPair L R)) := do
  user
  let m ← get
  let newLHash := m.hb.hl new
  let eqOpt ← swapLeftEqCheckU old new newLHash
  user
  user
  let m ← get
  let oldLHash := m.hb.hl old
  match m.left.get oldLHash (equivalentKey old) with
  | none => return neither
  | some lp =>
    match lp.hash with
    | some hash =>
      match m.right.getMut hash (hashAndId oldLHash lp.id) with
      | none => fail .unwrapNone
      | some (rp, writeRight) => set { m with right := writeRight { rp with hash := some newLHash } }
    | none => pure ()
    let m ← get
    let newLeftPairing : MappingPair L := { value := new, hash := lp.hash, id := lp.id }
    user
    match m.left.removeEntry oldLHash (equivalentKey old) with
    | none => fail .unwrapNone
    | some (oldLp, left') =>
      set { m with left := left' }
      left'.insertU newLHash newLeftPairing (·.hashWith m.hb.hl) (fun t => { m with left := t })
      if eqOpt.isNone then return someLeft oldLp.value else return someBoth oldLp.value eqOpt

/-- `swap_left_checked` — 909-920 -/
def swapLeftCheckedU (old : L) (expected : R) (new : L) : Unw (PartialMap L R) (OptionalPair L (OptionalPair L R)) := do
  if !(← arePairedU old expected) then return neither else swapLeftU old new

/-- `swap_left_or_insert` — 940-959 -/
def swapLeftOrInsertU (old new : L) (toInsert : R) : Unw (PartialMap L R) (OptionalPair L (OptionalPair L R)) := do
  user
  user
  let m ← get
  if (m.left.get (m.hb.hl old) (equivalentKey old)).isSome then swapLeftU old new
  else do
    match ← insertU new toInsert with
    | (neither, neither) => return neither
    | (neither, pair) => return someRight pair
    | _ => fail .unreachable

/-- `swap_right_eq_check` — 1122-1131 -/
def swapRightEqCheckU (old new : R) (newHash : UInt64) : Unw (PartialMap L R) (OptionalPair L R) := do
  user
  let m ← get
  match m.right.get newHash (equivalentKey new) with
  | none => return neither
  | some _ =>
    user
    if new != old then removeViaRightU new else return neither

/-- `swap_right` — 997-1042 -/
def swapRightU (old new : R) : Unw (PartialMap L R) (OptionalPair R (OptionalPair L R)) := do
  user
  let m ← get
  let newRHash := m.hb.hr new
  let eqOpt ← swapRightEqCheckU old new newRHash
  user
  user
  let m ← get
  let oldRHash := m.hb.hr old
  match m.right.get oldRHash (equivalentKey old) with
  | none => return neither
  | some rp =>
    match rp.hash with
    | some hash =>
      match m.left.getMut hash (hashAndId oldRHash rp.id) with
      | none => fail .unwrapNone
      | some (lp, writeLeft) => set { m with left := writeLeft { lp with hash := some newRHash } }
    | none => pure ()
    let m ← get
    let newRightPairing : MappingPair R := { value := new, hash := rp.hash, id := rp.id }
    user
    match m.right.removeEntry oldRHash (equivalentKey old) with
    | none => fail .unwrapNone
    | some (oldRp, right') =>
      set { m with right := right' }
      right'.insertU newRHash newRightPairing (·.hashWith m.hb.hr) (fun t => { m with right := t })
      if eqOpt.isNone then return someLeft oldRp.value else return someBoth oldRp.value eqOpt

/-- `swap_right_checked` — 1064-1075 -/
def swapRightCheckedU (old : R) (expected : L) (new : R) : Unw (PartialMap L R) (OptionalPair R (OptionalPair L R)) := do
  if !(← arePairedU expected old) then return neither else swapRightU old new

/-- `swap_right_or_insert` — 1095-1119 -/
def swapRightOrInsertU (old new : R) (toInsert : L) : Unw (PartialMap L R) (OptionalPair R (OptionalPair L R)) := do
  user
  user
  let m ← get
  if (m.right.get (m.hb.hr old) (equivalentKey old)).isSome then swapRightU old new
  else do
    match ← insertU toInsert new with
    | (neither, neither) => return neither
    | (pair, neither) => return someRight pair
    | _ => fail .unreachable

/-- `Iter::next` on an entry — 2022-2031, with `get_right` — 1174-1189 -/
def nextU (l : MappingPair L) : Unw (PartialMap L R) (OptionalPair L R) := do
  user
  user
  return ofPair (some l.value, (← get).getRight l.value)

/-- a `for` loop over `iter()` — 1248-1253 -/
def collectU : List (MappingPair L) → Unw (PartialMap L R) (List (OptionalPair L R))
  | [] => return []
  | l :: rest => do
    let p ← nextU l
    return p :: (← collectU rest)

/-- a `for` loop over `iter_paired()` — 1267-1273, with `PairedIter::next` — 2093-2108, which hashes paired left items -/
def collectPairedU : List (MappingPair L) → Unw (PartialMap L R) (List (L × R))
  | [] => return []
  | l :: rest =>
    match l.hash with
    | none => collectPairedU rest
    | some hash => do
      user
      let m ← get
      match m.getViaHashesAndId (m.hb.hl l.value) hash l.id with
      | .error p => fail p
      | .ok none => return []
      | .ok (some p) => return p :: (← collectPairedU rest)

/-- what `next` of `DrainFilterIter` or of `DrainIter` ends with; `panic none` is a panic of the closure -/
inductive NextU (L R : Type) where
  | done
  | item (p : OptionalPair L R)
  | panic (why : Option Panic)

/-- `DrainIter::next` — 2309-2329, with its own `unwrap`: the left entry has been taken from the iterator -/
def DrainIter.nextU (it : DrainIter L R) : NextU L R × DrainIter L R :=
  match it.todo with
  | l :: rest =>
    match l.hash with
    | some hash =>
      match it.right.removeEntry hash (justId l.id) with
      | none => (.panic (some .unwrapNone), { todo := rest, right := it.right })
      | some (r, right') => (.item (someBoth l.value r.value), { todo := rest, right := right' })
    | none => (.item (someLeft l.value), { todo := rest, right := it.right })
  | [] =>
    match it.right.toList.head? with
    | none => (.done, { todo := [], right := it.right.clear })
    | some r => (.item (someRight r.value), { todo := [], right := it.right.clear })

/-- calling `next` at most `n` times, until it returns `None` or panics; `some why` if it panicked -/
def DrainIter.takeU : Nat → DrainIter L R → List (OptionalPair L R) × Option (Option Panic) × DrainIter L R
  | 0, it => ([], none, it)
  | n + 1, it =>
    match DrainIter.nextU it with
    | (.done, it') => ([], none, it')
    | (.panic why, it') => ([], some why, it')
    | (.item p, it') =>
      let (ps, w, it'') := DrainIter.takeU n it'
      (p :: ps, w, it'')

/-- how a call that holds a draining iterator ends: `w` and `w'` say whether `next` panicked in the caller's loop and in
`Drop`.  A panic in `Drop` propagates, or, while another panic unwinds, aborts the process. -/
def ended {α : Type} (a : α) (w w' : Option (Option Panic)) (m : PartialMap L R) (fate : Fate) : Halt (PartialMap L R) α :=
  match w, w' with
  | none, none => .done a fate m
  | some why, none | none, some why => .panic why m
  | some _, some _ => .abort

/-- `drain()` — 1366-1371, at most `n` calls of `next`, then `Drop` — 2279-2292, also when a `next` panicked; the drop of
`left_iter` empties the left table in any case -/
def drainU (n : Nat) : Unw (PartialMap L R) (List (OptionalPair L R)) := fun fate m =>
  let (ps, w, it) := DrainIter.takeU n m.drain
  let (_, w', it) := DrainIter.takeU (it.todo.length + 2) it
  ended ps w w' { m with left := m.left.clear, right := it.right } fate

/-- first loop of `DrainFilterInner::next` — 2415-2434, with a closure that may panic and with its own `unwrap`: either
way the visited entry has been taken from the iterator, and neither table has been changed for it -/
def DrainFilter.nextLU {σ : Type} (f : σ → OptionalPair L R → Option Bool × σ)
    (kept todo : List (UInt64 × MappingPair L)) (right : RawTable (MappingPair R)) (st : σ) :
    NextU L R × List (UInt64 × MappingPair L) × List (UInt64 × MappingPair L) × RawTable (MappingPair R) × σ :=
  match todo with
  | [] => (.done, kept, [], right, st)
  | e :: rest =>
    match e.2.hash with
    | some hash =>
      match right.removeEntry hash (justId e.2.id) with
      | none => (.panic (some .unwrapNone), kept ++ [e], rest, right, st)
      | some (r, right') =>
        match f st (someBoth e.2.value r.value) with
        | (none, st') => (.panic none, kept ++ [e], rest, right, st')
        | (some true, st') => (.item (someBoth e.2.value r.value), kept, rest, right', st')
        | (some false, st') => DrainFilter.nextLU f (kept ++ [e]) rest right st'
    | none =>
      match f st (someLeft e.2.value) with
      | (none, st') => (.panic none, kept ++ [e], rest, right, st')
      | (some true, st') => (.item (someLeft e.2.value), kept, rest, right, st')
      | (some false, st') => DrainFilter.nextLU f (kept ++ [e]) rest right st'

/-- second loop of `DrainFilterInner::next` — 2439-2445, with a closure that may panic -/
def DrainFilter.nextRU {σ : Type} (f : σ → OptionalPair L R → Option Bool × σ)
    (kept todo : List (UInt64 × MappingPair R)) (st : σ) :
    NextU L R × List (UInt64 × MappingPair R) × List (UInt64 × MappingPair R) × σ :=
  match todo with
  | [] => (.done, kept, [], st)
  | e :: rest =>
    match f st (someRight e.2.value) with
    | (none, st') => (.panic none, kept ++ [e], rest, st')
    | (some true, st') => (.item (someRight e.2.value), kept, rest, st')
    | (some false, st') => DrainFilter.nextRU f (kept ++ [e]) rest st'

/-- `DrainFilterInner::next` — 2411-2447 -/
def DrainFilter.nextU {σ : Type} (f : σ → OptionalPair L R → Option Bool × σ) (it : DrainFilter σ L R) :
    NextU L R × DrainFilter σ L R :=
  match DrainFilter.nextLU f it.keptL it.todoL it.right it.st with
  | (.item p, keptL, todoL, right, st) => (.item p, { it with keptL := keptL, todoL := todoL, right := right, st := st })
  | (.panic w, keptL, todoL, right, st) => (.panic w, { it with keptL := keptL, todoL := todoL, right := right, st := st })
  | (.done, keptL, _, right, st) =>
    let (keptR, todoR) := if it.reset then ([], right.entries) else (it.keptR, it.todoR)
    let (o, keptR, todoR, st) := DrainFilter.nextRU f keptR todoR st
    (o, { keptL := keptL, todoL := [], right := right, reset := false, keptR := keptR, todoR := todoR, st := st })

/-- calling `next` at most `n` times, until it returns `None` or panics; `some why` if it panicked -/
def DrainFilter.takeU {σ : Type} (f : σ → OptionalPair L R → Option Bool × σ) :
    Nat → DrainFilter σ L R → List (OptionalPair L R) × Option (Option Panic) × DrainFilter σ L R
  | 0, it => ([], none, it)
  | n + 1, it =>
    match DrainFilter.nextU f it with
    | (.done, it') => ([], none, it')
    | (.panic why, it') => ([], some why, it')
    | (.item p, it') =>
      let (ps, w, it'') := DrainFilter.takeU f n it'
      (p :: ps, w, it'')

/-- `drain_filter(f)` — 1401-1418, at most `n` calls of `next`, then `Drop` — 2365-2378, also when a `next` panicked.
(If `Drop` panics in the first phase, the second is not reached.) -/
def drainFilterU {σ : Type} (f : σ → OptionalPair L R → Option Bool × σ) (st : σ) (n : Nat) :
    Unw (PartialMap L R) (List (OptionalPair L R)) := fun fate m =>
  let (ps, w, it) := DrainFilter.takeU f n
    { keptL := [], todoL := m.left.entries, right := m.right, reset := true, keptR := [], todoR := [], st := st }
  let (_, w', it) := DrainFilter.takeU f (it.todoL.length + it.right.len + it.todoR.length + 1) it
  ended ps w w' { m with
    left := RawImpl.touch (.erase (stays m.left (it.keptL ++ it.todoL))) { m.left with entries := it.keptL ++ it.todoL },
    right := RawImpl.touch (.erase (stays it.right it.rightEntries)) { it.right with entries := it.rightEntries } } fate

/-- first loop of `retain` — 1440-1452, with a closure that may panic.  (`iter()` yields a left item always.) -/
def retainScanU {σ : Type} (f : σ → OptionalPair L R → Option Bool × σ) :
    List (MappingPair L) → σ → Unw (PartialMap L R) (List (Option UInt64 × Option UInt64 × Nat))
  | [], _ => return []
  | l :: rest, st => do
    let op ← nextU l
    match f st op with
    | (none, _) => fun _ m => .panic none m
    | (some true, st') =>
      user
      if op.getRight.isSome then user
      user
      user
      let m ← get
      match m.getLeftInner l.value with
      | none => fail .unwrapNone
      | some p =>
        let d ← retainScanU f rest st'
        return (some (m.hb.hl l.value), op.getRight.map m.hb.hr, p.id) :: d
    | (some false, st') => retainScanU f rest st'

/-- second loop of `retain` — 1453-1468, and of `retain_unpaired` — 1543-1556 if `pairs` is `false` -/
def retainDropU (pairs : Bool) : List (Option UInt64 × Option UInt64 × Nat) → Unw (PartialMap L R) Unit
  | [] => return ()
  | (some l, some r, id) :: rest => do
    if pairs then
      let m ← get
      set (m.removeViaHashesAndId l r id).2
      retainDropU pairs rest
    else fail .unreachable
  | (some l, none, id) :: rest => do
    let m ← get
    set (match m.left.removeEntry l (justId id) with | none => m | some (_, t) => { m with left := t })
    retainDropU pairs rest
  | (none, some r, id) :: rest => do
    let m ← get
    set (match m.right.removeEntry r (justId id) with | none => m | some (_, t) => { m with right := t })
    retainDropU pairs rest
  | (none, none, _) :: _ => fail .unreachable

/-- `retain` — 1434-1469 -/
def retainU {σ : Type} (f : σ → OptionalPair L R → Option Bool × σ) (st : σ) : Unw (PartialMap L R) Unit := do
  let m ← get
  let toDrop ← retainScanU f m.iter.todo st
  retainDropU true toDrop

/-- first loop of `retain_paired` — 1491-1498, with `PairedIter::next` — 2093-2108, with a closure that may panic -/
def retainPairedScanU {σ : Type} (f : σ → L → R → Option Bool × σ) :
    List (MappingPair L) → σ → Unw (PartialMap L R) (List (UInt64 × UInt64 × Nat))
  | [], _ => return []
  | l :: rest, st =>
    match l.hash with
    | none => retainPairedScanU f rest st
    | some hash => do
      user
      let m ← get
      match m.getViaHashesAndId (m.hb.hl l.value) hash l.id with
      | .error p => fail p
      | .ok none => return []
      | .ok (some (left, right)) =>
        match f st left right with
        | (none, _) => fun _ m => .panic none m
        | (some true, st') =>
          user
          user
          user
          user
          match m.getLeftInner left with
          | none => fail .unwrapNone
          | some p =>
            let d ← retainPairedScanU f rest st'
            return (m.hb.hl left, m.hb.hr right, p.id) :: d
        | (some false, st') => retainPairedScanU f rest st'

/-- `retain_paired` — 1486-1502; the second loop runs no user code and cannot panic -/
def retainPairedU {σ : Type} (f : σ → L → R → Option Bool × σ) (st : σ) : Unw (PartialMap L R) Unit := do
  let m ← get
  let toDrop ← retainPairedScanU f m.iterPaired.todo st
  let m ← get
  set (retainPairedDrop m toDrop)

/-- first loop of `retain_unpaired` — 1525-1542, with a closure that may panic; `iter_unpaired` runs no user code -/
def retainUnpairedScanU {σ : Type} (f : σ → OptionalPair L R → Option Bool × σ) :
    List (OptionalPair L R) → σ → Unw (PartialMap L R) (List (Option UInt64 × Option UInt64 × Nat))
  | [], _ => return []
  | op :: rest, st =>
    match f st op with
    | (none, _) => fun _ m => .panic none m
    | (some true, st') =>
      match op with
      | someLeft left => do
        user
        user
        let m ← get
        match m.left.get (m.hb.hl left) (equivalentKey left) with
        | none => fail .unwrapNone
        | some p =>
          let d ← retainUnpairedScanU f rest st'
          return (some (m.hb.hl left), none, p.id) :: d
      | someRight right => do
        user
        user
        let m ← get
        match m.right.get (m.hb.hr right) (equivalentKey right) with
        | none => fail .unwrapNone
        | some p =>
          let d ← retainUnpairedScanU f rest st'
          return (none, some (m.hb.hr right), p.id) :: d
      | _ => fail .unreachable
    | (some false, st') => retainUnpairedScanU f rest st'

/-- `retain_unpaired` — 1519-1557 -/
def retainUnpairedU {σ : Type} (f : σ → OptionalPair L R → Option Bool × σ) (st : σ) : Unw (PartialMap L R) Unit := do
  let m ← get
  let toDrop ← retainUnpairedScanU f m.iterUnpairedList st
  retainDropU false toDrop

/-- `Extend<(L, R)>` — 1925-1937; the iterator it is given may panic, too -/
def extendPairsU : List (L × R) → Unw (PartialMap L R) Unit
  | [] => user
  | (l, r) :: rest => do
    user
    let _ ← insertU l r
    extendPairsU rest

/-- `Extend<OptionalPair<L, R>>` — 1939-1962 -/
def extendU : List (OptionalPair L R) → Unw (PartialMap L R) Unit
  | [] => user
  | neither :: rest => do
    user
    extendU rest
  | someLeft l :: rest => do
    user
    let _ ← insertLeftU l
    extendU rest
  | someRight r :: rest => do
    user
    let _ ← insertRightU r
    extendU rest
  | someBoth l r :: rest => do
    user
    let _ ← insertU l r
    extendU rest

/-- `shrink_to_left` — 1580-1583 -/
def shrinkToLeftU (n : Nat) : Unw (PartialMap L R) Unit := do
  let m ← get
  m.left.shrinkToU n (·.hashWith m.hb.hl) (fun t => { m with left := t })

/-- `shrink_to_right` — 1606-1609 -/
def shrinkToRightU (n : Nat) : Unw (PartialMap L R) Unit := do
  let m ← get
  m.right.shrinkToU n (·.hashWith m.hb.hr) (fun t => { m with right := t })

/-- `shrink_to_fit` — 1626-1631 -/
def shrinkToFitU : Unw (PartialMap L R) Unit := do
  let m ← get
  m.left.shrinkToU m.lenLeft (·.hashWith m.hb.hl) (fun t => { m with left := t })
  let m ← get
  m.right.shrinkToU m.lenRight (·.hashWith m.hb.hr) (fun t => { m with right := t })

/-- `reserve_left` — 1645-1648 -/
def reserveLeftU (n : Nat) : Unw (PartialMap L R) Unit := do
  let m ← get
  m.left.reserveU n (·.hashWith m.hb.hl) (fun t => { m with left := t })

/-- `reserve_right` — 1662-1665 -/
def reserveRightU (n : Nat) : Unw (PartialMap L R) Unit := do
  let m ← get
  m.right.reserveU n (·.hashWith m.hb.hr) (fun t => { m with right := t })

/-- a closure that does not panic -/
def sure {σ : Type} (f : σ → OptionalPair L R → Bool × σ) (s : σ) (o : OptionalPair L R) : Option Bool × σ :=
  (some (f s o).1, (f s o).2)

/-- a closure on pairs that does not panic -/
def sure₂ {σ : Type} (f : σ → L → R → Bool × σ) (s : σ) (l : L) (r : R) : Option Bool × σ :=
  (some (f s l r).1, (f s l r).2)

/-- Running a call, with panics that unwind.  Lookups: a hash, a probe (`are_paired`: two each).  `clone`: the items' `Clone` may
panic, then the caller keeps the original. -/
def execU : Op L R → Unw (PartialMap L R) (Out L R)
  | .insert l r => do return .twoEntries (← insertU l r)
  | .insertLeft l => do return .entry (← insertLeftU l)
  | .insertRight r => do return .entry (← insertRightU r)
  | .pair l r => do return .bool (← pairU l r)
  | .pairForced l r => do return .entry (← pairForcedU l r)
  | .pairForcedRemove l r => do return .entry (← pairForcedRemoveU l r)
  | .unpair l r => do return .bool (← unpairU l r)
  | .remove l r => do return .pair (← removeU l r)
  | .removeViaLeft l => do return .entry (← removeViaLeftU l)
  | .removeViaRight r => do return .entry (← removeViaRightU r)
  | .removeLeft l => do return .left (← removeLeftU l)
  | .removeRight r => do return .right (← removeRightU r)
  | .swapLeft old new => do return .swappedLeft (← swapLeftU old new)
  | .swapLeftChecked old e new => do return .swappedLeft (← swapLeftCheckedU old e new)
  | .swapLeftOrInsert old new r => do return .swappedLeft (← swapLeftOrInsertU old new r)
  | .swapRight old new => do return .swappedRight (← swapRightU old new)
  | .swapRightChecked old e new => do return .swappedRight (← swapRightCheckedU old e new)
  | .swapRightOrInsert old new l => do return .swappedRight (← swapRightOrInsertU old new l)
  | .getLeft r => do user; user; return .left ((← get).getLeft r)
  | .getRight l => do user; user; return .right ((← get).getRight l)
  | .containsLeft l => do user; user; return .bool ((← get).containsLeft l)
  | .containsRight r => do user; user; return .bool ((← get).containsRight r)
  | .isLeftPaired l => do user; user; return .bool ((← get).isLeftPaired l)
  | .isRightPaired r => do user; user; return .bool ((← get).isRightPaired r)
  | .arePaired l r => do return .bool (← arePairedU l r)
  | .lenLeft => do return .nat (← get).lenLeft
  | .lenRight => do return .nat (← get).lenRight
  | .isEmpty => do return .bool (← get).isEmpty
  | .clear => do set (← get).clear; return .unit
  | .iter => do return .entries (← collectU (← get).iter.todo)
  | .iterPaired => do return .pairs (← collectPairedU (← get).iterPaired.todo)
  | .iterUnpaired => do return .entries (← get).iterUnpairedList
  | .iterLeft => do return .lefts (← get).iterLeft
  | .iterRight => do return .rights (← get).iterRight
  | .drain n => do return .entries (← drainU n)
  | .drainFilter _ f s n => do return .entries (← drainFilterU (sure f) s n)
  | .retain _ f s => do retainU (sure f) s; return .unit
  | .retainPaired _ f s => do retainPairedU (sure₂ f) s; return .unit
  | .retainUnpaired _ f s => do retainUnpairedU (sure f) s; return .unit
  | .extendPairs xs => do extendPairsU xs; return .unit
  | .extend xs => do extendU xs; return .unit
  | .reserveLeft n => do reserveLeftU n; return .unit
  | .reserveRight n => do reserveRightU n; return .unit
  | .tryReserveLeft n ok => if ok then (do reserveLeftU n; return .bool true) else return .bool false
  | .tryReserveRight n ok => if ok then (do reserveRightU n; return .bool true) else return .bool false
  | .shrinkToLeft n => do shrinkToLeftU n; return .unit
  | .shrinkToRight n => do shrinkToRightU n; return .unit
  | .shrinkToFit => do shrinkToFitU; return .unit
  | .clone cl cr => do user; set ((← get).clone cl cr); return .unit

/-- A call whose closure may panic, or one of the others. -/
inductive Call (L R : Type) : Type 1 where
  | plain (op : Op L R)
  | drainFilter (σ : Type) (f : σ → OptionalPair L R → Option Bool × σ) (s : σ) (n : Nat)
  | retain (σ : Type) (f : σ → OptionalPair L R → Option Bool × σ) (s : σ)
  | retainPaired (σ : Type) (f : σ → L → R → Option Bool × σ) (s : σ)
  | retainUnpaired (σ : Type) (f : σ → OptionalPair L R → Option Bool × σ) (s : σ)

/-- Running such a call. -/
def callU : Call L R → Unw (PartialMap L R) (Out L R)
  | .plain op => execU op
  | .drainFilter _ f s n => do return .entries (← drainFilterU f s n)
  | .retain _ f s => do retainU f s; return .unit
  | .retainPaired _ f s => do retainPairedU f s; return .unit
  | .retainUnpaired _ f s => do retainUnpairedU f s; return .unit

/-- A history in which every panic is caught and the map used further; `none` if the process is aborted. -/
def runU (m : PartialMap L R) : List (Fate × Call L R) → Option (PartialMap L R)
  | [] => some m
  | (f, call) :: rest =>
    match callU call f m with
    | .done _ _ m' => runU m' rest
    | .panic _ m' => runU m' rest
    | .abort => none

end
end Verif.PartialMap
