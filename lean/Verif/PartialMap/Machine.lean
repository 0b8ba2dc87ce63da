import Verif.PartialMap.Spec
/-
The public API of `PartialCycleMap` as a machine: calls, results, what the model does (`exec`, `run`),
and what a plain list of entries would do (`Step`).
-/
namespace Verif.PartialMap
open PartialSpec OptionalPair
open CycleSpec (split)

variable [RawImpl] {L R : Type} [BEq L] [BEq R]

/-- A call of the API.  Closures may be stateful (`σ` is the state captured by the `FnMut`). -/
inductive Op (L R : Type) : Type 1 where
  | insert (l : L) (r : R)
  | insertLeft (l : L)
  | insertRight (r : R)
  | pair (l : L) (r : R)
  | pairForced (l : L) (r : R)
  | pairForcedRemove (l : L) (r : R)
  | unpair (l : L) (r : R)
  | remove (l : L) (r : R)
  | removeViaLeft (l : L)
  | removeViaRight (r : R)
  | removeLeft (l : L)
  | removeRight (r : R)
  | swapLeft (old new : L)
  | swapLeftChecked (old : L) (expected : R) (new : L)
  | swapLeftOrInsert (old new : L) (toInsert : R)
  | swapRight (old new : R)
  | swapRightChecked (old : R) (expected : L) (new : R)
  | swapRightOrInsert (old new : R) (toInsert : L)
  | getLeft (r : R)
  | getRight (l : L)
  | containsLeft (l : L)
  | containsRight (r : R)
  | isLeftPaired (l : L)
  | isRightPaired (r : R)
  | arePaired (l : L) (r : R)
  | lenLeft
  | lenRight
  | isEmpty
  | clear
  | iter
  | iterPaired
  | iterUnpaired
  | iterLeft
  | iterRight
  /-- `drain()`, `n` calls of `next`, drop -/
  | drain (n : Nat)
  /-- `drain_filter(f)`, `n` calls of `next`, drop -/
  | drainFilter (σ : Type) (f : σ → OptionalPair L R → Bool × σ) (s : σ) (n : Nat)
  | retain (σ : Type) (f : σ → OptionalPair L R → Bool × σ) (s : σ)
  | retainPaired (σ : Type) (f : σ → L → R → Bool × σ) (s : σ)
  | retainUnpaired (σ : Type) (f : σ → OptionalPair L R → Bool × σ) (s : σ)
  | extendPairs (xs : List (L × R))
  | extend (xs : List (OptionalPair L R))
  | reserveLeft (n : Nat)
  | reserveRight (n : Nat)
  | tryReserveLeft (n : Nat) (ok : Bool)
  | tryReserveRight (n : Nat) (ok : Bool)
  | shrinkToLeft (n : Nat)
  | shrinkToRight (n : Nat)
  | shrinkToFit
  /-- go on with a clone of the map -/
  | clone (cl : L → L) (cr : R → R)

/-- The result of a call. -/
inductive Out (L R : Type) where
  | unit
  | bool (b : Bool)
  | nat (n : Nat)
  | left (o : Option L)
  | right (o : Option R)
  | pair (o : Option (L × R))
  | entry (o : OptionalPair L R)
  | twoEntries (o : OptionalPair L R × OptionalPair L R)
  | swappedLeft (o : OptionalPair L (OptionalPair L R))
  | swappedRight (o : OptionalPair R (OptionalPair L R))
  | lefts (ls : List L)
  | rights (rs : List R)
  | pairs (ps : List (L × R))
  | entries (es : List (OptionalPair L R))

/-- Running a call on the model. -/
def exec (m : PartialMap L R) : Op L R → Res (Out L R × PartialMap L R)
  | .insert l r => do let (o, m) ← m.insert l r; return (.twoEntries o, m)
  | .insertLeft l => do let (o, m) ← m.insertLeft l; return (.entry o, m)
  | .insertRight r => do let (o, m) ← m.insertRight r; return (.entry o, m)
  | .pair l r => .ok (.bool (m.pair l r).1, (m.pair l r).2)
  | .pairForced l r => do let (o, m) ← m.pairForced l r; return (.entry o, m)
  | .pairForcedRemove l r => do let (o, m) ← m.pairForcedRemove l r; return (.entry o, m)
  | .unpair l r => .ok (.bool (m.unpair l r).1, (m.unpair l r).2)
  | .remove l r => do let (o, m) ← m.remove l r; return (.pair o, m)
  | .removeViaLeft l => do let (o, m) ← m.removeViaLeft l; return (.entry o, m)
  | .removeViaRight r => do let (o, m) ← m.removeViaRight r; return (.entry o, m)
  | .removeLeft l => do let (o, m) ← m.removeLeft l; return (.left o, m)
  | .removeRight r => do let (o, m) ← m.removeRight r; return (.right o, m)
  | .swapLeft old new => do let (o, m) ← m.swapLeft old new; return (.swappedLeft o, m)
  | .swapLeftChecked old e new => do let (o, m) ← m.swapLeftChecked old e new; return (.swappedLeft o, m)
  | .swapLeftOrInsert old new r => do let (o, m) ← m.swapLeftOrInsert old new r; return (.swappedLeft o, m)
  | .swapRight old new => do let (o, m) ← m.swapRight old new; return (.swappedRight o, m)
  | .swapRightChecked old e new => do let (o, m) ← m.swapRightChecked old e new; return (.swappedRight o, m)
  | .swapRightOrInsert old new l => do let (o, m) ← m.swapRightOrInsert old new l; return (.swappedRight o, m)
  | .getLeft r => .ok (.left (m.getLeft r), m)
  | .getRight l => .ok (.right (m.getRight l), m)
  | .containsLeft l => .ok (.bool (m.containsLeft l), m)
  | .containsRight r => .ok (.bool (m.containsRight r), m)
  | .isLeftPaired l => .ok (.bool (m.isLeftPaired l), m)
  | .isRightPaired r => .ok (.bool (m.isRightPaired r), m)
  | .arePaired l r => .ok (.bool (m.arePaired l r), m)
  | .lenLeft => .ok (.nat m.lenLeft, m)
  | .lenRight => .ok (.nat m.lenRight, m)
  | .isEmpty => .ok (.bool m.isEmpty, m)
  | .clear => .ok (.unit, m.clear)
  | .iter => .ok (.entries m.iterList, m)
  | .iterPaired => do return (.pairs (← m.iterPairedList), m)
  | .iterUnpaired => .ok (.entries m.iterUnpairedList, m)
  | .iterLeft => .ok (.lefts m.iterLeft, m)
  | .iterRight => .ok (.rights m.iterRight, m)
  | .drain n => do let (ps, m) ← m.drainTake n; return (.entries ps, m)
  | .drainFilter _ f s n => do let (ps, _, m) ← m.drainFilterTake f s n; return (.entries ps, m)
  | .retain _ f s => do let (_, m) ← m.retain f s; return (.unit, m)
  | .retainPaired _ f s => do let (_, m) ← m.retainPaired f s; return (.unit, m)
  | .retainUnpaired _ f s => do let (_, m) ← m.retainUnpaired f s; return (.unit, m)
  | .extendPairs xs => do return (.unit, ← m.extendPairs xs)
  | .extend xs => do return (.unit, ← m.extend xs)
  | .reserveLeft n => .ok (.unit, m.reserveLeft n)
  | .reserveRight n => .ok (.unit, m.reserveRight n)
  | .tryReserveLeft n a => .ok (.bool (m.tryReserveLeft n a).1, (m.tryReserveLeft n a).2)
  | .tryReserveRight n a => .ok (.bool (m.tryReserveRight n a).1, (m.tryReserveRight n a).2)
  | .shrinkToLeft n => .ok (.unit, m.shrinkToLeft n)
  | .shrinkToRight n => .ok (.unit, m.shrinkToRight n)
  | .shrinkToFit => .ok (.unit, m.shrinkToFit)
  | .clone cl cr => .ok (.unit, m.clone cl cr)

/-- Running a history of calls on the model: the results, and the map at the end. -/
def run (m : PartialMap L R) : List (Op L R) → Res (List (Out L R) × PartialMap L R)
  | [] => .ok ([], m)
  | op :: ops => do
    let (o, m) ← m.exec op
    let (os, m) ← run m ops
    return (o :: os, m)

/-- What a list of entries does: `Step c op o c'` says that with contents `c` the call `op` may return
`o` and leave `c'`.  Calls that visit the entries one by one may do so in any order.  Calls that deviate
from their documentation are described as they are (see C47, C49, C50, C53-C55). -/
def Step (c : List (OptionalPair L R)) : Op L R → Out L R → List (OptionalPair L R) → Prop
  | .insert l r, o, c' => o = .twoEntries (PartialSpec.insert c l r).1 ∧ c' = (PartialSpec.insert c l r).2
  | .insertLeft l, o, c' => o = .entry (PartialSpec.insertLeft c l).1 ∧ c' = (PartialSpec.insertLeft c l).2
  | .insertRight r, o, c' => o = .entry (PartialSpec.insertRight c r).1 ∧ c' = (PartialSpec.insertRight c r).2
  | .pair l r, o, c' => o = .bool (PartialSpec.pair c l r).1 ∧ c' = (PartialSpec.pair c l r).2
  | .pairForced l r, o, c' => o = .entry (PartialSpec.pairForced c l r).1 ∧ c' = (PartialSpec.pairForced c l r).2
  | .pairForcedRemove l r, o, c' =>
      o = .entry (PartialSpec.pairForcedRemove c l r).1 ∧ c' = (PartialSpec.pairForcedRemove c l r).2
  | .unpair l r, o, c' => o = .bool (PartialSpec.unpair c l r).1 ∧ c' = (PartialSpec.unpair c l r).2
  | .remove l r, o, c' => o = .pair (PartialSpec.remove c l r).1 ∧ c' = (PartialSpec.remove c l r).2
  | .removeViaLeft l, o, c' => o = .entry ((findL c l).getD neither) ∧ c' = eraseL c l
  | .removeViaRight r, o, c' => o = .entry ((findR c r).getD neither) ∧ c' = eraseR c r
  | .removeLeft l, o, c' => o = .left (PartialSpec.removeLeft c l).1 ∧ c' = (PartialSpec.removeLeft c l).2
  | .removeRight r, o, c' => o = .right (PartialSpec.removeRight c r).1 ∧ c' = (PartialSpec.removeRight c r).2
  | .swapLeft old new, o, c' =>
      o = .swappedLeft (PartialSpec.swapLeft c old new).1 ∧ c' = (PartialSpec.swapLeft c old new).2
  | .swapLeftChecked old e new, o, c' =>
      if hasPair c old e then
        o = .swappedLeft (PartialSpec.swapLeft c old new).1 ∧ c' = (PartialSpec.swapLeft c old new).2
      else o = .swappedLeft neither ∧ c' = c
  | .swapLeftOrInsert old new r, o, c' =>
      if (findL c old).isSome then
        o = .swappedLeft (PartialSpec.swapLeft c old new).1 ∧ c' = (PartialSpec.swapLeft c old new).2
      /- panics if `new` is present (C49) -/
      else findL c new = none ∧ o = .swappedLeft (ofPair (none, findR c r)) ∧ c' = (PartialSpec.insert c new r).2
  | .swapRight old new, o, c' =>
      o = .swappedRight (PartialSpec.swapRight c old new).1 ∧ c' = (PartialSpec.swapRight c old new).2
  | .swapRightChecked old e new, o, c' =>
      if hasPair c e old then
        o = .swappedRight (PartialSpec.swapRight c old new).1 ∧ c' = (PartialSpec.swapRight c old new).2
      else o = .swappedRight neither ∧ c' = c
  | .swapRightOrInsert old new l, o, c' =>
      if (findR c old).isSome then
        o = .swappedRight (PartialSpec.swapRight c old new).1 ∧ c' = (PartialSpec.swapRight c old new).2
      /- panics if `new` is present and not the partner of `l` (C49) -/
      else (hasPair c l new = true ∨ findR c new = none) ∧ o = .swappedRight (ofPair (none, findL c l)) ∧
        c' = (PartialSpec.insert c l new).2
  | .getLeft r, o, c' => o = .left ((findR c r).bind leftOf) ∧ c' = c
  | .getRight l, o, c' => o = .right ((findL c l).bind rightOf) ∧ c' = c
  | .containsLeft l, o, c' => o = .bool (c.any (hasL l)) ∧ c' = c
  | .containsRight r, o, c' => o = .bool (c.any (hasR r)) ∧ c' = c
  | .isLeftPaired l, o, c' => o = .bool (c.any fun e => isPair e && hasL l e) ∧ c' = c
  | .isRightPaired r, o, c' => o = .bool (c.any fun e => isPair e && hasR r e) ∧ c' = c
  | .arePaired l r, o, c' => o = .bool (hasPair c l r) ∧ c' = c
  | .lenLeft, o, c' => o = .nat (c.filterMap leftOf).length ∧ c' = c
  | .lenRight, o, c' => o = .nat (c.filterMap rightOf).length ∧ c' = c
  | .isEmpty, o, c' => o = .bool c.isEmpty ∧ c' = c
  | .clear, o, c' => o = .unit ∧ c' = []
  | .iter, o, c' => ∃ d, d.Perm (c.filter fun e => (leftOf e).isSome) ∧ o = .entries d ∧ c' = c
  | .iterPaired, o, c' => ∃ d, d.Perm (c.filterMap pairOf) ∧ o = .pairs d ∧ c' = c
  | .iterUnpaired, o, c' => ∃ d, d.Perm (c.filter fun e => !isPair e) ∧ o = .entries d ∧ c' = c
  | .iterLeft, o, c' => ∃ d, d.Perm (c.filterMap leftOf) ∧ o = .lefts d ∧ c' = c
  | .iterRight, o, c' => ∃ d, d.Perm (c.filterMap rightOf) ∧ o = .rights d ∧ c' = c
  | .drain n, o, c' => ∃ (d : List (OptionalPair L R)) (x : Option (OptionalPair L R)),
      d.Perm (c.filter fun e => (leftOf e).isSome) ∧ (x = none ↔ ∀ e ∈ c, (leftOf e).isSome = true) ∧
      (∀ e, x = some e → e ∈ c ∧ leftOf e = none) ∧ o = .entries ((d ++ x.toList).take n) ∧ c' = []
  | .drainFilter _ f s n, o, c' => ∃ d1 us d2 : List (OptionalPair L R),
      (d1 ++ us).Perm c ∧ (∀ e ∈ d1, (leftOf e).isSome = true) ∧ (∀ e ∈ us, leftOf e = none) ∧
      (d2 ++ (split f d1 s).2.1.filter fun e => (rightOf e).isNone).Perm ((split f d1 s).2.1 ++ us) ∧
      (∀ e ∈ d2, (rightOf e).isSome = true) ∧
      o = .entries (((split f d1 s).1 ++
        (split (fun s e => f s (asRight e)) d2 (split f d1 s).2.2).1.map asRight).take n) ∧
      c' = (split (fun s e => f s (asRight e)) d2 (split f d1 s).2.2).2.1 ++
          (split f d1 s).2.1.filter fun e => (rightOf e).isNone
  | .retain _ f s, o, c' => ∃ d us : List (OptionalPair L R),
      (d ++ us).Perm c ∧ (∀ e ∈ d, (leftOf e).isSome = true) ∧ (∀ e ∈ us, leftOf e = none) ∧
      o = .unit ∧ c' = (split f d s).2.1 ++ us
  | .retainPaired _ f s, o, c' => ∃ d, d.Perm (c.filterMap pairOf) ∧ o = .unit ∧
      c' = (split (fun s p => f s p.1 p.2) d s).2.1.map (fun p => someBoth p.1 p.2) ++ c.filter fun e => !isPair e
  | .retainUnpaired _ f s, o, c' => ∃ d, d.Perm (c.filter fun e => !isPair e) ∧ o = .unit ∧
      c' = (split f d s).2.1 ++ c.filter isPair
  | .extendPairs xs, o, c' => o = .unit ∧ c' = insertAll c (xs.map fun p => someBoth p.1 p.2)
  | .extend xs, o, c' => o = .unit ∧ c' = insertAll c xs
  | .reserveLeft _, o, c' => o = .unit ∧ c' = c
  | .reserveRight _, o, c' => o = .unit ∧ c' = c
  | .tryReserveLeft _ a, o, c' => o = .bool a ∧ c' = c
  | .tryReserveRight _ a, o, c' => o = .bool a ∧ c' = c
  | .shrinkToLeft _, o, c' => o = .unit ∧ c' = c
  | .shrinkToRight _, o, c' => o = .unit ∧ c' = c
  | .shrinkToFit, o, c' => o = .unit ∧ c' = c
  | .clone cl cr, o, c' => o = .unit ∧ c' = c.map (mapEntry cl cr)

/-- `unpair l r` cannot go wrong: it compares only hashes, so this says that if `l` has a partner whose hash
is that of `r`, and `r` has a partner whose hash is that of `l`, then `l` and `r` really are partners. -/
def UnpairSafe (hb : BuildHasher L R) (c : List (OptionalPair L R)) (l : L) (r : R) : Prop :=
  ∀ a b a' b', someBoth a b ∈ c → someBoth a' b' ∈ c → (l == a) = true → (r == b') = true →
    hb.hr r = hb.hr b → hb.hl l = hb.hl a' → hasPair c l r = true

/-- The calls that neither panic nor corrupt a map with hash builder `hb` and contents `c`.  Excluded:
`unpair` under a double hash collision (C41), the panicking cases of `swap_*_or_insert` (C49),
`drain_filter` with a closure that accepts a paired right item as if it were alone (C54), and `Clone`
implementations whose result is not equal to the original. -/
def Safe (hb : BuildHasher L R) (c : List (OptionalPair L R)) : Op L R → Prop
  | .unpair l r => UnpairSafe hb c l r
  | .swapLeftOrInsert old new _ => (findL c old).isSome = true ∨ findL c new = none
  | .swapRightOrInsert old new l => (findR c old).isSome = true ∨ hasPair c l new = true ∨ findR c new = none
  | .drainFilter _ f _ _ => ∀ s l r, someBoth l r ∈ c → (f s (someRight r)).1 = false
  | .clone cl cr => (∀ x, (cl x == x) = true) ∧ (∀ x, (cr x == x) = true)
  | _ => True

/-- A history that is safe however the visiting orders turn out. -/
def SafeRun (hb : BuildHasher L R) (c : List (OptionalPair L R)) : List (Op L R) → Prop
  | [] => True
  | op :: ops => Safe hb c op ∧ ∀ o c', Step c op o c' → SafeRun hb c' ops

/-- A history on a list of entries. -/
def Steps (c : List (OptionalPair L R)) : List (Op L R) → List (Out L R) → List (OptionalPair L R) → Prop
  | [], os, c' => os = [] ∧ c' = c
  | op :: ops, os, c' => ∃ o os' c₁, os = o :: os' ∧ Step c op o c₁ ∧ Steps c₁ ops os' c'

/-- The maps that API calls can produce, apart from the calls that corrupt a map (see `Safe`). -/
inductive Reachable : PartialMap L R → Prop
  | new (hb : BuildHasher L R) : Reachable (withHasher hb)
  | withCapacity (n : Nat) (hb : BuildHasher L R) : Reachable (withCapacityAndHasher n hb)
  | step {m : PartialMap L R} {op : Op L R} {o : Out L R} {m' : PartialMap L R} : Reachable m →
      (∀ l r, op = .unpair l r → ∀ b a, m.getRight l = some b → m.getLeft r = some a →
        m.hb.hr r = m.hb.hr b → m.hb.hl l = m.hb.hl a → m.arePaired l r = true) →
      (∀ σ f s n, op = .drainFilter σ f s n → ∀ ps, m.iterPairedList = .ok ps → ∀ p ∈ ps, ∀ s,
        (f s (someRight p.2)).1 = false) →
      (∀ cl cr, op = .clone cl cr → (∀ x, (cl x == x) = true) ∧ (∀ x, (cr x == x) = true)) →
      m.exec op = .ok (o, m') → Reachable m'

end Verif.PartialMap
