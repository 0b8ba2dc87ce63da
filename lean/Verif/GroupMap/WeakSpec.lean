import Verif.GroupMap.Machine
/-
List-level specification of `GroupMap` for items whose `==` is any relation at all: it need not be reflexive,
symmetric or transitive.  Several stored items may then match the item of a call, and the call may pick any of them.
The contents are the right items, each with a label of its own, and the left items, each with the label of the right
item it belongs to; both up to order.  (`group_map.rs` compares `stored == query`.)
-/
namespace Verif.GroupWeak
open GroupMap
open CycleSpec (split)

/-- right items with their labels, and left items with the labels of their right items -/
structure Groups (L R : Type) where
  rights : List (Nat × R)
  lefts : List (L × Nat)

variable {L R : Type} [BEq L] [BEq R]

/-- the same contents, up to order -/
def Same (c d : Groups L R) : Prop := c.rights.Perm d.rights ∧ c.lefts.Perm d.lefts

/-- no two right items have the same label, and every left item belongs to a right item -/
def Sound (c : Groups L R) : Prop :=
  c.rights.Pairwise (·.1 ≠ ·.1) ∧ ∀ x ∈ c.lefts, ∃ y ∈ c.rights, y.1 = x.2

/-- no left item matches `l` -/
def NoL (c : Groups L R) (l : L) : Prop := ∀ x ∈ c.lefts, (x.1 == l) = false

/-- no right item matches `r` -/
def NoR (c : Groups L R) (r : R) : Prop := ∀ y ∈ c.rights, (y.2 == r) = false

/-- no right item has the label `i` -/
def New (c : Groups L R) (i : Nat) : Prop := ∀ y ∈ c.rights, y.1 ≠ i

/-- `l` is looked up and taken out: one of the left items that match, if there is one -/
def TakeL (c : Groups L R) (l : L) (o : Option (L × Nat)) (c' : Groups L R) : Prop :=
  (o = none ∧ NoL c l ∧ Same c' c) ∨
  ∃ x, o = some x ∧ (x.1 == l) = true ∧ c.lefts.Perm (x :: c'.lefts) ∧ c'.rights.Perm c.rights

/-- the right item `y` is one of those that match `r` -/
def Hit (c : Groups L R) (r : R) (y : Nat × R) : Prop := y ∈ c.rights ∧ (y.2 == r) = true

/-- the left items of the right item with the label `i` -/
def group (c : Groups L R) (i : Nat) : List L := (c.lefts.filter (·.2 == i)).map (·.1)

/-- the right item `y` goes with its left items; what is returned is a `HashSet` of them, which keeps one of those
that are equal -/
def Drop (c : Groups L R) (y : Nat × R) (o : Option (List L × R)) (c' : Groups L R) : Prop :=
  c.rights.Perm (y :: c'.rights) ∧ c'.lefts.Perm (c.lefts.filter fun x => !(x.2 == y.1)) ∧
  ∃ ks, ks.Perm (group c y.1) ∧ o = some (collectSet ks, y.2)

/-- `r` is looked up and taken out: one of the right items that match, with its left items, if there is one -/
def TakeR (c : Groups L R) (r : R) (o : Option (List L × R)) (c' : Groups L R) : Prop :=
  (o = none ∧ NoR c r ∧ Same c' c) ∨ ∃ y, (y.2 == r) = true ∧ Drop c y o c'

/-- `insert`: the left item that matches `l`, or else `l`, now belongs to the right item that matches `r`, or else
to `r`, which is then added -/
def Insert (c : Groups L R) (l : L) (r : R) (c' : Groups L R) : Prop :=
  ∃ o d i, TakeL c l o d ∧ c'.lefts.Perm (((o.map (·.1)).getD l, i) :: d.lefts) ∧
    ((NoR c r ∧ New c i ∧ c'.rights.Perm ((i, r) :: c.rights)) ∨ ∃ y, Hit c r y ∧ y.1 = i ∧ c'.rights.Perm c.rights)

/-- `insert_remove`: what matched `l` goes, then what matched `r` with its left items, and the pair is added -/
def InsertRemove (c : Groups L R) (l : L) (r : R) (o₁ : Option L) (o₂ : Option (List L × R)) (c' : Groups L R) : Prop :=
  ∃ t c₁ c₂ i, TakeL c l t c₁ ∧ TakeR c₁ r o₂ c₂ ∧ o₁ = t.map (·.1) ∧ New c₂ i ∧
    c'.rights.Perm ((i, r) :: c₂.rights) ∧ c'.lefts.Perm ((l, i) :: c₂.lefts)

/-- `insert_left`: nothing, or what matched `l` goes and `l` is added to a right item that matches `r` -/
def InsertLeft (c : Groups L R) (l : L) (r : R) (o : Option L) (c' : Groups L R) : Prop :=
  (o = none ∧ NoR c r ∧ Same c' c) ∨
  ∃ y t d, Hit c r y ∧ TakeL c l t d ∧ o = t.map (·.1) ∧ c'.rights.Perm c.rights ∧ c'.lefts.Perm ((l, y.1) :: d.lefts)

/-- `insert_right`: what matched goes with its left items, and the item is added -/
def InsertRight (c : Groups L R) (r : R) (o : Option (List L × R)) (c' : Groups L R) : Prop :=
  ∃ d i, TakeR c r o d ∧ New d i ∧ c'.rights.Perm ((i, r) :: d.rights) ∧ c'.lefts.Perm d.lefts

/-- `extend` -/
def InsertAll (c : Groups L R) : List (Option L × R) → Groups L R → Prop
  | [], c' => Same c' c
  | (some l, r) :: xs, c' => ∃ d, Insert c l r d ∧ InsertAll d xs c'
  | (none, r) :: xs, c' => ∃ o d, InsertRight c r o d ∧ InsertAll d xs c'

/-- the item `l` and the item `r` can be found to be paired -/
def Paired (c : Groups L R) (l : L) (r : R) (y : Nat × R) : Prop := Hit c r y ∧ ∃ a, (a, y.1) ∈ c.lefts ∧ (a == l) = true

/-- the item `l` and the item `r` can be found not to be paired, or are missing -/
def Unpaired (c : Groups L R) (l : L) (r : R) : Prop :=
  NoL c l ∨ NoR c r ∨ ∃ x y, x ∈ c.lefts ∧ (x.1 == l) = true ∧ Hit c r y ∧ x.2 ≠ y.1

/-- the right items without left items -/
def lone (c : Groups L R) : List (Nat × R) := c.rights.filter fun y => !(c.lefts.any (·.2 == y.1))

/-- the pairs -/
def pairs (c : Groups L R) : List (L × R) :=
  c.lefts.filterMap fun x => (c.rights.find? (·.1 == x.2)).map fun y => (x.1, y.2)

/-- what the lookups of the items `ys` find: for each of them a right item that matches -/
def Picks (c : Groups L R) : List (Nat × R) → List Nat → Prop
  | [], js => js = []
  | y :: ys, js => ∃ z js', js = z.1 :: js' ∧ Hit c y.2 z ∧ Picks c ys js'

/-- What a call may return and leave. -/
def Step (c : Groups L R) : Op L R → Out L R → Groups L R → Prop
  | .insert l r, o, c' => o = .unit ∧ Insert c l r c'
  | .insertRemove l r, o, c' => ∃ o₁ o₂, o = .leftAndGroup o₁ o₂ ∧ InsertRemove c l r o₁ o₂ c'
  | .insertLeft l r, o, c' => ∃ t, o = .left t ∧ InsertLeft c l r t c'
  | .insertRight r, o, c' => ∃ g, o = .group g ∧ InsertRight c r g c'
  | .swapRight old new, o, c' => o = .unit ∧
      ((NoR c old ∧ ∃ g, InsertRight c new g c') ∨
        (¬ NoR c old ∧ ∃ i, New c i ∧ c'.rights.Perm ((i, new) :: c.rights) ∧ c'.lefts.Perm c.lefts))
  | .swapRightRemove old new, o, c' =>
      (NoR c old ∧ o = .right none ∧ ∃ g, InsertRight c new g c') ∨
      ∃ y rs i, (y.2 == old) = true ∧ c.rights.Perm (y :: rs) ∧ o = .right (some y.2) ∧ New c i ∧
        c'.rights.Perm ((i, new) :: rs) ∧ c'.lefts.Perm c.lefts
  | .pair l r, o, c' =>
      (o = .bool false ∧ (NoL c l ∨ NoR c r) ∧ Same c' c) ∨
      ∃ x d y, o = .bool true ∧ TakeL c l (some x) d ∧ Hit c r y ∧ c'.rights.Perm c.rights ∧
        c'.lefts.Perm ((x.1, y.1) :: d.lefts)
  | .remove l r, o, c' =>
      (o = .group none ∧ Unpaired c l r ∧ Same c' c) ∨ ∃ g y, o = .group g ∧ Paired c l r y ∧ Drop c y g c'
  | .removeLeft l, o, c' => ∃ t, o = .left (t.map (·.1)) ∧ TakeL c l t c'
  | .removeRight r, o, c' => ∃ g, o = .group g ∧ TakeR c r g c'
  | .getRight l, o, c' => Same c' c ∧
      ((o = .right none ∧ NoL c l) ∨ ∃ x y, o = .right (some y.2) ∧ x ∈ c.lefts ∧ (x.1 == l) = true ∧ y ∈ c.rights ∧ y.1 = x.2)
  | .getLeftIter r, o, c' => Same c' c ∧
      ((o = .leftsOf none ∧ NoR c r) ∨ ∃ y g, Hit c r y ∧ g.Perm (group c y.1) ∧ o = .leftsOf (some g))
  | .containsLeft l, o, c' => o = .bool (c.lefts.any (·.1 == l)) ∧ Same c' c
  | .containsRight r, o, c' => o = .bool (c.rights.any (·.2 == r)) ∧ Same c' c
  | .isRightPaired r, o, c' => Same c' c ∧
      ((o = .bool false ∧ NoR c r) ∨ ∃ y, Hit c r y ∧ o = .bool (c.lefts.any (·.2 == y.1)))
  | .arePaired l r, o, c' => Same c' c ∧
      ((o = .bool true ∧ ∃ y, Paired c l r y) ∨ (o = .bool false ∧ Unpaired c l r))
  | .lenLeft, o, c' => o = .nat c.lefts.length ∧ Same c' c
  | .lenRight, o, c' => o = .nat c.rights.length ∧ Same c' c
  | .isEmpty, o, c' => o = .bool c.rights.isEmpty ∧ Same c' c
  | .clear, o, c' => o = .unit ∧ c'.rights = [] ∧ c'.lefts = []
  | .iter, o, c' => Same c' c ∧ ∃ d, o = .entries d ∧
      d.Perm ((pairs c).map (fun p => (some p.1, p.2)) ++ (lone c).map fun y => (none, y.2))
  | .iterPaired, o, c' => Same c' c ∧ ∃ d, o = .pairs d ∧ d.Perm (pairs c)
  | .iterUnpaired, o, c' => Same c' c ∧ ∃ d, o = .rights d ∧ d.Perm ((lone c).map (·.2))
  | .iterLeft, o, c' => Same c' c ∧ ∃ d, o = .lefts d ∧ d.Perm (c.lefts.map (·.1))
  | .iterRight, o, c' => Same c' c ∧ ∃ d, o = .rights d ∧ d.Perm (c.rights.map (·.2))
  | .retainPaired _ _ _, o, c' => o = .unit ∧ Same c' c
  /- for every lone item the closure accepts, a right item that matches it goes, with its left items -/
  | .retainUnpaired _ f s, o, c' => o = .unit ∧ ∃ d js, d.Perm (lone c) ∧ Picks c (split (fun s y => f s y.2) d s).1 js ∧
      c'.rights.Perm (c.rights.filter fun y => !(js.contains y.1)) ∧
      c'.lefts.Perm (c.lefts.filter fun x => !(js.contains x.2))
  | .extend xs, o, c' => o = .unit ∧ InsertAll c (xs.map fun p => (some p.1, p.2)) c'
  | .extendOpt xs, o, c' => o = .unit ∧ InsertAll c xs c'
  | .clone cl cr, o, c' => o = .unit ∧ c'.rights.Perm (c.rights.map fun y => (y.1, cr y.2)) ∧
      c'.lefts.Perm (c.lefts.map fun x => (cl x.1, x.2))

/-- `insert` does not corrupt the map: no left item that matches belongs to a right item that matches (C62) -/
def SaneInsert (c : Groups L R) (l : L) (r : R) : Prop := ∀ y, ¬ Paired c l r y

/-- every `insert` of an `extend`, wherever the lookups before it hit -/
def SaneAll (c : Groups L R) : List (Option L × R) → Prop
  | [] => True
  | (some l, r) :: xs => SaneInsert c l r ∧ ∀ d, Insert c l r d → SaneAll d xs
  | (none, r) :: xs => ∀ o d, InsertRight c r o d → SaneAll d xs

/-- The calls covered.  Left out are those that also corrupt a map where `==` is an equivalence: `insert` of a pair
that is there (C62), `swap_right` and `swap_right_remove` of a right item with left items (C66, C67), `retain_paired`
with a closure that accepts a pair (C74), and a `Clone` whose result is not equal to the original; and `pair` where
several right items match: it looks the right item up twice, and the table contract does not promise that both lookups
find the same one. -/
def Sane (c : Groups L R) : Op L R → Prop
  | .insert l r => SaneInsert c l r
  | .swapRight old _ => ∀ y, Hit c old y → ∀ x ∈ c.lefts, x.2 ≠ y.1
  | .swapRightRemove old _ => ∀ y, Hit c old y → ∀ x ∈ c.lefts, x.2 ≠ y.1
  | .pair _ r => ∀ y z, Hit c r y → Hit c r z → y = z
  | .retainPaired _ f _ => ∀ p ∈ pairs c, ∀ s, (f s p.1 p.2).1 = false
  | .extend xs => SaneAll c (xs.map fun p => (some p.1, p.2))
  | .extendOpt xs => SaneAll c xs
  | .clone cl cr => (∀ x, (cl x == x) = true) ∧ (∀ x, (cr x == x) = true)
  | _ => True

/-- What keeps a covered call from panicking: `retain_unpaired` looks every item it accepts up again, so something must
match it (it itself, where `==` is reflexive). -/
def Calm (c : Groups L R) : Op L R → Prop
  | .retainUnpaired _ f _ => ∀ y ∈ lone c, ∀ s, (f s y.2).1 = true → ∃ z, Hit c y.2 z
  | _ => True

/-- a history of covered calls, wherever the lookups hit -/
def SaneRun (c : Groups L R) : List (Op L R) → Prop
  | [] => True
  | op :: ops => Sane c op ∧ ∀ o c', Step c op o c' → SaneRun c' ops

/-- a history of covered calls that cannot panic -/
def CalmRun (c : Groups L R) : List (Op L R) → Prop
  | [] => True
  | op :: ops => (Sane c op ∧ Calm c op) ∧ ∀ o c', Step c op o c' → CalmRun c' ops

/-- A history on the lists. -/
def Steps (c : Groups L R) : List (Op L R) → List (Out L R) → Groups L R → Prop
  | [], os, c' => os = [] ∧ Same c' c
  | op :: ops, os, c' => ∃ o os' c₁, os = o :: os' ∧ Step c op o c₁ ∧ Steps c₁ ops os' c'

end Verif.GroupWeak

namespace Verif.GroupMap
open GroupWeak
variable [RawImpl] {L R : Type} [BEq L] [BEq R]

/-- What can be seen of `m` is what the groups `c` hold: every left item belongs to one right item, and the two
tables agree on which. -/
structure Links (m : GroupMap L R) (c : Groups L R) : Prop where
  sound : Sound c
  iter : ∃ d, m.iterList = .ok d ∧
    d.Perm ((pairs c).map (fun p => (some p.1, p.2)) ++ (lone c).map fun y => (none, y.2))
  iterPaired : ∃ d, m.iterPairedList = .ok d ∧ d.Perm (pairs c)
  iterUnpaired : m.iterUnpairedList.Perm ((lone c).map (·.2))
  iterLeft : m.iterLeft.Perm (c.lefts.map (·.1))
  iterRight : m.iterRight.Perm (c.rights.map (·.2))
  lenLeft : m.lenLeft = c.lefts.length
  lenRight : m.lenRight = c.rights.length
  isEmpty : m.isEmpty = c.rights.isEmpty

end Verif.GroupMap
