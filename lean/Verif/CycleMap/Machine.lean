import Verif.CycleMap.Spec
/-
The public API of `CycleMap` as a machine: calls, results, what the model does (`exec`, `run`), and
what a plain list of pairs would do (`Step`).
-/
namespace Verif.CycleMap
open CycleSpec OptionalPair

variable [RawImpl] {L R : Type} [BEq L] [BEq R]

/-- A call of the API.  Closures may be stateful (`σ` is the state captured by the `FnMut`). -/
inductive Op (L R : Type) : Type 1 where
  | insert (l : L) (r : R)
  | remove (l : L) (r : R)
  | removeViaLeft (l : L)
  | removeViaRight (r : R)
  | swapLeft (old new : L)
  | swapLeftChecked (old : L) (expected : R) (new : L)
  | swapLeftOrInsert (old new : L) (toInsert : R)
  | swapRight (old new : R)
  | swapRightChecked (old : R) (expected : L) (new : R)
  | swapRightOrInsert (old new : R) (toInsert : L)
  | getLeft (r : R)
  | getRight (l : L)
  | containsLeft (l : L)
  | containsRight (r : R)
  | arePaired (l : L) (r : R)
  | len
  | isEmpty
  | clear
  | iter
  | iterLeft
  | iterRight
  /-- `drain()`, `n` calls of `next`, drop -/
  | drain (n : Nat)
  /-- `drain_filter(f)`, `n` calls of `next`, drop -/
  | drainFilter (σ : Type) (f : σ → L → R → Bool × σ) (s : σ) (n : Nat)
  /-- `drain_filter(f)` in a `for` loop that runs to the end -/
  | drainFilterAll (σ : Type) (f : σ → L → R → Bool × σ) (s : σ)
  | retain (σ : Type) (f : σ → L → R → Bool × σ) (s : σ)
  | extend (xs : List (L × R))
  | reserve (n : Nat)
  | tryReserve (n : Nat) (okLeft okRight : Bool)
  | shrinkTo (n : Nat)
  | shrinkToFit
  /-- go on with a clone of the map -/
  | clone (cl : L → L) (cr : R → R)

/-- The result of a call. -/
inductive Out (L R : Type) where
  | unit
  | bool (b : Bool)
  | nat (n : Nat)
  | left (o : Option L)
  | right (o : Option R)
  | pair (o : Option (L × R))
  | inserted (o : InsertOptional L R)
  | swappedLeft (o : OptionalPair L (L × R))
  | swappedRight (o : OptionalPair R (L × R))
  | lefts (ls : List L)
  | rights (rs : List R)
  | pairs (ps : List (L × R))

/-- Running a call on the model. -/
def exec (m : CycleMap L R) : Op L R → Res (Out L R × CycleMap L R)
  | .insert l r => do let (o, m) ← m.insert l r; return (.inserted o, m)
  | .remove l r => do let (o, m) ← m.remove l r; return (.pair o, m)
  | .removeViaLeft l => do let (o, m) ← m.removeViaLeft l; return (.pair o, m)
  | .removeViaRight r => do let (o, m) ← m.removeViaRight r; return (.pair o, m)
  | .swapLeft old new => do let (o, m) ← m.swapLeft old new; return (.swappedLeft o, m)
  | .swapLeftChecked old e new => do let (o, m) ← m.swapLeftChecked old e new; return (.swappedLeft o, m)
  | .swapLeftOrInsert old new r => do let (o, m) ← m.swapLeftOrInsert old new r; return (.swappedLeft o, m)
  | .swapRight old new => do let (o, m) ← m.swapRight old new; return (.swappedRight o, m)
  | .swapRightChecked old e new => do let (o, m) ← m.swapRightChecked old e new; return (.swappedRight o, m)
  | .swapRightOrInsert old new l => do let (o, m) ← m.swapRightOrInsert old new l; return (.swappedRight o, m)
  | .getLeft r => .ok (.left (m.getLeft r), m)
  | .getRight l => .ok (.right (m.getRight l), m)
  | .containsLeft l => .ok (.bool (m.containsLeft l), m)
  | .containsRight r => .ok (.bool (m.containsRight r), m)
  | .arePaired l r => .ok (.bool (m.arePaired l r), m)
  | .len => .ok (.nat m.len, m)
  | .isEmpty => .ok (.bool m.isEmpty, m)
  | .clear => .ok (.unit, m.clear)
  | .iter => do return (.pairs (← m.iterList), m)
  | .iterLeft => .ok (.lefts m.iterLeft, m)
  | .iterRight => .ok (.rights m.iterRight, m)
  | .drain n => do let (ps, m) ← m.drainTake n; return (.pairs ps, m)
  | .drainFilter _ f s n => do let (ps, _, m) ← m.drainFilterTake f s n; return (.pairs ps, m)
  | .drainFilterAll _ f s => do let (ps, _, m) ← m.drainFilterTake f s (m.len + 1); return (.pairs ps, m)
  | .retain _ f s => do let (_, m) ← m.retain f s; return (.unit, m)
  | .extend xs => do return (.unit, ← m.extend xs)
  | .reserve n => .ok (.unit, m.reserve n)
  | .tryReserve n a b => .ok (.bool (m.tryReserve n a b).1, (m.tryReserve n a b).2)
  | .shrinkTo n => .ok (.unit, m.shrinkTo n)
  | .shrinkToFit => .ok (.unit, m.shrinkToFit)
  | .clone cl cr => .ok (.unit, m.clone cl cr)

/-- Running a history of calls on the model: the results, and the map at the end. -/
def run (m : CycleMap L R) : List (Op L R) → Res (List (Out L R) × CycleMap L R)
  | [] => .ok ([], m)
  | op :: ops => do
    let (o, m) ← m.exec op
    let (os, m) ← run m ops
    return (o :: os, m)

/-- What a list of pairs does: `Step c op o c'` says that with contents `c` the call `op` may return `o`
and leave `c'`.  Calls that visit the pairs one by one may do so in any order `d`. -/
def Step (c : List (L × R)) : Op L R → Out L R → List (L × R) → Prop
  | .insert l r, o, c' => o = .inserted (CycleSpec.insert c l r).1 ∧ c' = (CycleSpec.insert c l r).2
  | .remove l r, o, c' =>
      o = .pair (if hasPair c l r then findL c l else none) ∧ c' = if hasPair c l r then eraseL c l else c
  | .removeViaLeft l, o, c' => o = .pair (findL c l) ∧ c' = eraseL c l
  | .removeViaRight r, o, c' => o = .pair (findR c r) ∧ c' = eraseR c r
  | .swapLeft old new, o, c' => o = .swappedLeft (CycleSpec.swapLeft c old new).1 ∧ c' = (CycleSpec.swapLeft c old new).2
  | .swapLeftChecked old e new, o, c' =>
      if hasPair c old e then
        o = .swappedLeft (CycleSpec.swapLeft c old new).1 ∧ c' = (CycleSpec.swapLeft c old new).2
      else o = .swappedLeft neither ∧ c' = c
  | .swapLeftOrInsert old new r, o, c' =>
      if (findL c old).isSome then
        o = .swappedLeft (CycleSpec.swapLeft c old new).1 ∧ c' = (CycleSpec.swapLeft c old new).2
      /- of a pair displaced by its left item only the left item is handed back (C17) -/
      else o = .swappedLeft ((CycleSpec.insert c new r).1.mapLeft (·.1)) ∧ c' = (CycleSpec.insert c new r).2
  | .swapRight old new, o, c' =>
      o = .swappedRight (CycleSpec.swapRight c old new).1 ∧ c' = (CycleSpec.swapRight c old new).2
  | .swapRightChecked old e new, o, c' =>
      if hasPair c e old then
        o = .swappedRight (CycleSpec.swapRight c old new).1 ∧ c' = (CycleSpec.swapRight c old new).2
      else o = .swappedRight neither ∧ c' = c
  | .swapRightOrInsert old new l, o, c' =>
      if (findR c old).isSome then
        o = .swappedRight (CycleSpec.swapRight c old new).1 ∧ c' = (CycleSpec.swapRight c old new).2
      /- panics if `l` is present (C18) -/
      else findL c l = none ∧ o = .swappedRight (ofPair (none, findR c new)) ∧ c' = (CycleSpec.insert c l new).2
  | .getLeft r, o, c' => o = .left ((findR c r).map (·.1)) ∧ c' = c
  | .getRight l, o, c' => o = .right ((findL c l).map (·.2)) ∧ c' = c
  | .containsLeft l, o, c' => o = .bool (c.any fun p => l == p.1) ∧ c' = c
  | .containsRight r, o, c' => o = .bool (c.any fun p => r == p.2) ∧ c' = c
  | .arePaired l r, o, c' => o = .bool (hasPair c l r) ∧ c' = c
  | .len, o, c' => o = .nat c.length ∧ c' = c
  | .isEmpty, o, c' => o = .bool c.isEmpty ∧ c' = c
  | .clear, o, c' => o = .unit ∧ c' = []
  | .iter, o, c' => ∃ d, d.Perm c ∧ o = .pairs d ∧ c' = c
  | .iterLeft, o, c' => ∃ d, d.Perm (c.map (·.1)) ∧ o = .lefts d ∧ c' = c
  | .iterRight, o, c' => ∃ d, d.Perm (c.map (·.2)) ∧ o = .rights d ∧ c' = c
  | .drain n, o, c' => c.length ≤ n ∧ ∃ d, d.Perm c ∧ o = .pairs d ∧ c' = []
  | .drainFilter _ f s n, o, c' =>
      ∃ d, d.Perm c ∧ o = .pairs ((split (fun s p => f s p.1 p.2) d s).1.take n) ∧
        c' = (split (fun s p => f s p.1 p.2) d s).2.1
  | .drainFilterAll _ f s, o, c' =>
      ∃ d, d.Perm c ∧ o = .pairs (split (fun s p => f s p.1 p.2) d s).1 ∧
        c' = (split (fun s p => f s p.1 p.2) d s).2.1
  | .retain _ f s, o, c' => ∃ d, d.Perm c ∧ o = .unit ∧ c' = (split (fun s p => f s p.1 p.2) d s).1
  | .extend xs, o, c' => o = .unit ∧ c' = insertAll c xs
  | .reserve _, o, c' => o = .unit ∧ c' = c
  | .tryReserve _ a b, o, c' => o = .bool (a && b) ∧ c' = c
  | .shrinkTo _, o, c' => o = .unit ∧ c' = c
  | .shrinkToFit, o, c' => o = .unit ∧ c' = c
  | .clone cl cr, o, c' => o = .unit ∧ c' = c.map fun p => (cl p.1, cr p.2)

/-- The calls the crate handles correctly with contents `c`.  Excluded: dropping `drain` early (C21),
`swap_right_or_insert` of a left item that is already present (C18), and `Clone` implementations whose
result is not equal to the original. -/
def Safe (c : List (L × R)) : Op L R → Prop
  | .drain n => c.length ≤ n
  | .swapRightOrInsert old _ l => (findR c old).isSome ∨ findL c l = none
  | .clone cl cr => (∀ x, (cl x == x) = true) ∧ (∀ x, (cr x == x) = true)
  | _ => True

/-- A history that is safe however the visiting orders turn out. -/
def SafeRun (c : List (L × R)) : List (Op L R) → Prop
  | [] => True
  | op :: ops => Safe c op ∧ ∀ o c', Step c op o c' → SafeRun c' ops

/-- A history on a list of pairs. -/
def Steps (c : List (L × R)) : List (Op L R) → List (Out L R) → List (L × R) → Prop
  | [], os, c' => os = [] ∧ c' = c
  | op :: ops, os, c' => ∃ o os' c₁, os = o :: os' ∧ Step c op o c₁ ∧ Steps c₁ ops os' c'

/-- The maps that API calls can produce, apart from early-dropped drains and unlawful `Clone`s. -/
inductive Reachable : CycleMap L R → Prop
  | new (hb : BuildHasher L R) : Reachable (withHasher hb)
  | withCapacity (n : Nat) (hb : BuildHasher L R) : Reachable (withCapacityAndHasher n hb)
  | step {m : CycleMap L R} {op : Op L R} {o : Out L R} {m' : CycleMap L R} : Reachable m →
      (∀ n, op = .drain n → m.len ≤ n) →
      (∀ cl cr, op = .clone cl cr → (∀ x, (cl x == x) = true) ∧ (∀ x, (cr x == x) = true)) →
      m.exec op = .ok (o, m') → Reachable m'

end Verif.CycleMap
