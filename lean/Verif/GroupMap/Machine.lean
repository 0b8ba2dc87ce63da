import Verif.GroupMap.Spec
/-
The public API of `GroupMap` as a machine: calls, results, what the model does (`exec`, `run`),
and what a plain list of right items and a list of pairs would do (`Step`).
-/
namespace Verif.GroupMap
open GroupSpec
open CycleSpec (split)

variable [RawImpl] {L R : Type} [BEq L] [BEq R]

/-- A call of the API.  Closures may be stateful (`σ` is the state captured by the `FnMut`). -/
inductive Op (L R : Type) : Type 1 where
  | insert (l : L) (r : R)
  | insertRemove (l : L) (r : R)
  | insertLeft (l : L) (r : R)
  | insertRight (r : R)
  | swapRight (old new : R)
  | swapRightRemove (old new : R)
  | pair (l : L) (r : R)
  | remove (l : L) (r : R)
  | removeLeft (l : L)
  | removeRight (r : R)
  | getRight (l : L)
  /-- `get_left_iter(r)`, driven to the end -/
  | getLeftIter (r : R)
  | containsLeft (l : L)
  | containsRight (r : R)
  | isRightPaired (r : R)
  | arePaired (l : L) (r : R)
  | lenLeft
  | lenRight
  | isEmpty
  | clear
  | iter
  | iterPaired
  | iterUnpaired
  | iterLeft
  | iterRight
  | retainPaired (σ : Type) (f : σ → L → R → Bool × σ) (s : σ)
  | retainUnpaired (σ : Type) (f : σ → R → Bool × σ) (s : σ)
  /-- `extend` with a sequence of pairs -/
  | extend (xs : List (L × R))
  /-- `extend` with a sequence of pairs and lone right items -/
  | extendOpt (xs : List (Option L × R))
  /-- go on with a clone of the map -/
  | clone (cl : L → L) (cr : R → R)

/-- The result of a call. -/
inductive Out (L R : Type) where
  | unit
  | bool (b : Bool)
  | nat (n : Nat)
  | left (o : Option L)
  | right (o : Option R)
  /-- a right item with its left items (a `HashSet`, as the list of its elements) -/
  | group (o : Option (List L × R))
  | leftAndGroup (l : Option L) (o : Option (List L × R))
  | leftsOf (o : Option (List L))
  | lefts (ls : List L)
  | rights (rs : List R)
  | pairs (ps : List (L × R))
  | entries (es : List (Option L × R))

/-- Running a call on the model. -/
def exec (m : GroupMap L R) : Op L R → Res (Out L R × GroupMap L R)
  | .insert l r => do let m ← m.insert l r; return (.unit, m)
  | .insertRemove l r => do let (o, m) ← m.insertRemove l r; return (.leftAndGroup o.1 o.2, m)
  | .insertLeft l r => do let (o, m) ← m.insertLeft l r; return (.left o, m)
  | .insertRight r => do let (o, m) ← m.insertRight r; return (.group o, m)
  | .swapRight old new => do let m ← m.swapRight old new; return (.unit, m)
  | .swapRightRemove old new => do let (o, m) ← m.swapRightRemove old new; return (.right o, m)
  | .pair l r => do let (o, m) ← m.pair l r; return (.bool o, m)
  | .remove l r => do let (o, m) ← m.remove l r; return (.group o, m)
  | .removeLeft l => do let (o, m) ← m.removeLeft l; return (.left o, m)
  | .removeRight r => do let (o, m) ← m.removeRight r; return (.group o, m)
  | .getRight l => .ok (.right (m.getRight l), m)
  | .getLeftIter r => do return (.leftsOf (← m.getLeftList r), m)
  | .containsLeft l => .ok (.bool (m.containsLeft l), m)
  | .containsRight r => .ok (.bool (m.containsRight r), m)
  | .isRightPaired r => .ok (.bool (m.isRightPaired r), m)
  | .arePaired l r => .ok (.bool (m.arePaired l r), m)
  | .lenLeft => .ok (.nat m.lenLeft, m)
  | .lenRight => .ok (.nat m.lenRight, m)
  | .isEmpty => .ok (.bool m.isEmpty, m)
  | .clear => .ok (.unit, m.clear)
  | .iter => do return (.entries (← m.iterList), m)
  | .iterPaired => do return (.pairs (← m.iterPairedList), m)
  | .iterUnpaired => .ok (.rights m.iterUnpairedList, m)
  | .iterLeft => .ok (.lefts m.iterLeft, m)
  | .iterRight => .ok (.rights m.iterRight, m)
  | .retainPaired _ f s => do let (_, m) ← m.retainPaired f s; return (.unit, m)
  | .retainUnpaired _ f s => do let (_, m) ← m.retainUnpaired f s; return (.unit, m)
  | .extend xs => do return (.unit, ← m.extend xs)
  | .extendOpt xs => do return (.unit, ← m.extendOpt xs)
  | .clone cl cr => .ok (.unit, m.clone cl cr)

/-- Running a history of calls on the model: the results, and the map at the end. -/
def run (m : GroupMap L R) : List (Op L R) → Res (List (Out L R) × GroupMap L R)
  | [] => .ok ([], m)
  | op :: ops => do
    let (o, m) ← m.exec op
    let (os, m) ← run m ops
    return (o :: os, m)

/-- What the lists do: `Step c op o c'` says that with contents `c` the call `op` may return `o` and leave `c'`.
Calls that visit items one by one may do so in any order, and a returned group may be in any order.  (The calls
that break a map, see `Safe`, are described as documented; `retain_paired` and `retain_unpaired` are described as
they are: they *remove* what the closure accepts, see C74, C75.) -/
def Step (c : Contents L R) : Op L R → Out L R → Contents L R → Prop
  | .insert l r, o, c' => o = .unit ∧ c' = GroupSpec.insert c l r
  | .insertRemove l r, o, c' => ∃ g, SameEntry g (GroupSpec.insertRemove c l r).1.2 ∧
      o = .leftAndGroup (GroupSpec.insertRemove c l r).1.1 g ∧ c' = (GroupSpec.insertRemove c l r).2
  | .insertLeft l r, o, c' => o = .left (GroupSpec.insertLeft c l r).1 ∧ c' = (GroupSpec.insertLeft c l r).2
  | .insertRight r, o, c' => ∃ g, SameEntry g (GroupSpec.insertRight c r).1 ∧ o = .group g ∧
      c' = (GroupSpec.insertRight c r).2
  | .swapRight old new, o, c' => o = .unit ∧ c' = GroupSpec.swapRight c old new
  | .swapRightRemove old new, o, c' =>
      o = .right (GroupSpec.swapRightRemove c old new).1 ∧ c' = (GroupSpec.swapRightRemove c old new).2
  | .pair l r, o, c' => o = .bool (GroupSpec.pair c l r).1 ∧ c' = (GroupSpec.pair c l r).2
  | .remove l r, o, c' => ∃ g, SameEntry g (GroupSpec.remove c l r).1 ∧ o = .group g ∧ c' = (GroupSpec.remove c l r).2
  | .removeLeft l, o, c' => o = .left ((findL c l).map (·.1)) ∧ c' = eraseL c l
  | .removeRight r, o, c' => ∃ g, SameEntry g (entryR c r) ∧ o = .group g ∧ c' = eraseR c r
  | .getRight l, o, c' => o = .right ((findL c l).map (·.2)) ∧ c' = c
  | .getLeftIter r, o, c' => ∃ g, g.Perm (GroupSpec.group c r) ∧ o = .leftsOf ((findR c r).map fun _ => g) ∧ c' = c
  | .containsLeft l, o, c' => o = .bool (c.pairs.any (l == ·.1)) ∧ c' = c
  | .containsRight r, o, c' => o = .bool (c.rights.any (r == ·)) ∧ c' = c
  | .isRightPaired r, o, c' => o = .bool (hasGroup c r) ∧ c' = c
  | .arePaired l r, o, c' => o = .bool (hasPair c l r) ∧ c' = c
  | .lenLeft, o, c' => o = .nat c.pairs.length ∧ c' = c
  | .lenRight, o, c' => o = .nat c.rights.length ∧ c' = c
  | .isEmpty, o, c' => o = .bool c.rights.isEmpty ∧ c' = c
  | .clear, o, c' => o = .unit ∧ c' = GroupSpec.empty
  | .iter, o, c' => ∃ d, d.Perm (GroupSpec.entries c) ∧ o = .entries d ∧ c' = c
  | .iterPaired, o, c' => ∃ d, d.Perm c.pairs ∧ o = .pairs d ∧ c' = c
  | .iterUnpaired, o, c' => ∃ d, d.Perm (lone c) ∧ o = .rights d ∧ c' = c
  | .iterLeft, o, c' => ∃ d, d.Perm (c.pairs.map (·.1)) ∧ o = .lefts d ∧ c' = c
  | .iterRight, o, c' => ∃ d, d.Perm c.rights ∧ o = .rights d ∧ c' = c
  | .retainPaired _ f s, o, c' => ∃ d, d.Perm c.pairs ∧ o = .unit ∧
      c' = { c with pairs := (split (fun s p => f s p.1 p.2) d s).2.1 }
  | .retainUnpaired _ f s, o, c' => ∃ d, d.Perm (lone c) ∧ o = .unit ∧
      c' = { c with rights := (split f d s).2.1 ++ c.rights.filter (hasGroup c) }
  | .extend xs, o, c' => o = .unit ∧ c' = insertAll c (xs.map fun p => (some p.1, p.2))
  | .extendOpt xs, o, c' => o = .unit ∧ c' = insertAll c xs
  | .clone cl cr, o, c' => o = .unit ∧ c' = mapItems cl cr c

/-- The calls that neither panic nor corrupt a map with contents `c`.  Excluded: `insert` of a pair that is there
(C62), `swap_right` and `swap_right_remove` on a paired right item or onto a right item that is there (C66, C67),
`retain_paired` with a closure that accepts a pair (C74), and `Clone` implementations whose result is not equal to
the original. -/
def Safe (c : Contents L R) : Op L R → Prop
  | .insert l r => hasPair c l r = false
  | .swapRight old new => findR c old = none ∨ hasGroup c old = false ∧ findR c new = none
  | .swapRightRemove old new =>
      findR c old = none ∨ hasGroup c old = false ∧ (findR c new = none ∨ (old == new) = true)
  | .retainPaired _ f _ => ∀ p ∈ c.pairs, ∀ s, (f s p.1 p.2).1 = false
  | .extend xs => NewPairs c (xs.map fun p => (some p.1, p.2))
  | .extendOpt xs => NewPairs c xs
  | .clone cl cr => (∀ x, (cl x == x) = true) ∧ (∀ x, (cr x == x) = true)
  | _ => True

/-- A history that is safe however the visiting orders turn out. -/
def SafeRun (c : Contents L R) : List (Op L R) → Prop
  | [] => True
  | op :: ops => Safe c op ∧ ∀ o c', Step c op o c' → SafeRun c' ops

/-- A history on the lists. -/
def Steps (c : Contents L R) : List (Op L R) → List (Out L R) → Contents L R → Prop
  | [], os, c' => os = [] ∧ c' = c
  | op :: ops, os, c' => ∃ o os' c₁, os = o :: os' ∧ Step c op o c₁ ∧ Steps c₁ ops os' c'

/-- What rules out the calls that corrupt a map, in terms of the API. -/
def Allowed (m : GroupMap L R) : Op L R → Prop
  | .insert l r => m.arePaired l r = false
  | .swapRight old new =>
      m.containsRight old = false ∨ m.isRightPaired old = false ∧ m.containsRight new = false
  | .swapRightRemove old new =>
      m.containsRight old = false ∨
        m.isRightPaired old = false ∧ (m.containsRight new = false ∨ (old == new) = true)
  | .retainPaired _ f _ => ∀ ps, m.iterPairedList = .ok ps → ∀ p ∈ ps, ∀ s, (f s p.1 p.2).1 = false
  /- `extend` is a series of `insert` and `insert_right` (C77): not needed here -/
  | .extend _ => False
  | .extendOpt _ => False
  | .clone cl cr => (∀ x, (cl x == x) = true) ∧ (∀ x, (cr x == x) = true)
  | _ => True

/-- The maps that API calls can produce, apart from the calls that corrupt a map (see `Safe`). -/
inductive Reachable : GroupMap L R → Prop
  | new (hb : BuildHasher L R) : Reachable (withHasher hb)
  | withCapacity (n : Nat) (hb : BuildHasher L R) : Reachable (withCapacityAndHasher n hb)
  | step {m : GroupMap L R} {op : Op L R} {o : Out L R} {m' : GroupMap L R} : Reachable m → Allowed m op →
      m.exec op = .ok (o, m') → Reachable m'

end Verif.GroupMap
