import Verif.GroupMap.Model
import Verif.CycleMap.Spec
/-
List-level specification of `GroupMap`: the contents of a map are its right items, and its pairs (a left item
with the right item it belongs to).  The order of the two lists is irrelevant.  Nothing here mentions hashes, ids or
tables.
-/
namespace Verif

/-- what a group map holds -/
structure GroupSpec.Contents (L R : Type) where
  /-- the right items, with or without left items -/
  rights : List R
  /-- the left items, each with its right item -/
  pairs : List (L × R)

namespace GroupSpec
variable {L R : Type} [BEq L] [BEq R]

/-- the same up to order -/
structure Contents.Same (c d : Contents L R) : Prop where
  rights : c.rights.Perm d.rights
  pairs : c.pairs.Perm d.pairs

/-- no left item occurs twice, no right item occurs twice, and the right item of every pair is there -/
structure Contents.Sound (c : Contents L R) : Prop where
  lefts : c.pairs.Pairwise fun p q => (p.1 == q.1) = false
  rights : c.rights.Pairwise fun a b => (a == b) = false
  owned : ∀ p ∈ c.pairs, p.2 ∈ c.rights

/-- nothing -/
def empty : Contents L R := ⟨[], []⟩

/-- the pair of the left item `l` -/
def findL (c : Contents L R) (l : L) : Option (L × R) := c.pairs.find? (l == ·.1)

/-- the stored right item equal to `r` -/
def findR (c : Contents L R) (r : R) : Option R := c.rights.find? (r == ·)

/-- the left items of `r` -/
def group (c : Contents L R) (r : R) : List L := (c.pairs.filter (r == ·.2)).map (·.1)

/-- `l` belongs to `r` -/
def hasPair (c : Contents L R) (l : L) (r : R) : Bool := c.pairs.any fun p => l == p.1 && r == p.2

/-- `r` has left items -/
def hasGroup (c : Contents L R) (r : R) : Bool := c.pairs.any fun p => r == p.2

/-- the right items without left items -/
def lone (c : Contents L R) : List R := c.rights.filter fun r => !hasGroup c r

/-- the pairs, and the right items without left items -/
def entries (c : Contents L R) : List (Option L × R) :=
  c.pairs.map (fun p => (some p.1, p.2)) ++ (lone c).map fun r => (none, r)

/-- all but the left item `l` -/
def eraseL (c : Contents L R) (l : L) : Contents L R := { c with pairs := c.pairs.filter fun p => !(l == p.1) }

/-- all but the right item `r` and its left items -/
def eraseR (c : Contents L R) (r : R) : Contents L R :=
  { rights := c.rights.filter fun b => !(r == b), pairs := c.pairs.filter fun p => !(r == p.2) }

/-- the right item equal to `r`, with its left items -/
def entryR (c : Contents L R) (r : R) : Option (List L × R) := (findR c r).map fun b => (group c r, b)

/-! What the calls do to the contents: returned value and new contents. -/

/-- `insert`: stored items stay -/
def insert (c : Contents L R) (l : L) (r : R) : Contents L R :=
  { rights := match findR c r with | some _ => c.rights | none => r :: c.rights
    pairs := (((findL c l).map (·.1)).getD l, (findR c r).getD r) :: (eraseL c l).pairs }

/-- `insert_left` -/
def insertLeft (c : Contents L R) (l : L) (r : R) : Option L × Contents L R :=
  match findR c r with
  | none => (none, c)
  | some b => ((findL c l).map (·.1), { c with pairs := (l, b) :: (eraseL c l).pairs })

/-- `insert_right` -/
def insertRight (c : Contents L R) (r : R) : Option (List L × R) × Contents L R :=
  (entryR c r, { rights := r :: (eraseR c r).rights, pairs := (eraseR c r).pairs })

/-- `insert_remove`: `l` goes, then `r` with all its left items, then the new pair comes -/
def insertRemove (c : Contents L R) (l : L) (r : R) : (Option L × Option (List L × R)) × Contents L R :=
  (((findL c l).map (·.1), entryR (eraseL c l) r),
   { rights := r :: (eraseR (eraseL c l) r).rights, pairs := (l, r) :: (eraseR (eraseL c l) r).pairs })

/-- `pair`: `l` moves to `r` if both are there -/
def pair (c : Contents L R) (l : L) (r : R) : Bool × Contents L R :=
  match findL c l, findR c r with
  | some p, some b => (true, { c with pairs := (p.1, b) :: (eraseL c l).pairs })
  | _, _ => (false, c)

/-- `remove` -/
def remove (c : Contents L R) (l : L) (r : R) : Option (List L × R) × Contents L R :=
  if hasPair c l r then (entryR c r, eraseR c r) else (none, c)

/-- the pairs after all left items of `old` moved to `new` -/
def moveAll (c : Contents L R) (old new : R) : List (L × R) :=
  c.pairs.map fun p => if old == p.2 then (p.1, new) else p

/-- `swap_right` as documented; with `old` absent it is `insert_right` -/
def swapRight (c : Contents L R) (old new : R) : Contents L R :=
  match findR c old with
  | none => (insertRight c new).2
  | some _ => { rights := new :: c.rights, pairs := moveAll c old new }

/-- `swap_right_remove` as documented; with `old` absent it is `insert_right` -/
def swapRightRemove (c : Contents L R) (old new : R) : Option R × Contents L R :=
  match findR c old with
  | none => (none, (insertRight c new).2)
  | some b => (some b, { rights := new :: (eraseR c old).rights, pairs := moveAll c old new })

/-- every item replaced by its clone -/
def mapItems (cl : L → L) (cr : R → R) (c : Contents L R) : Contents L R :=
  ⟨c.rights.map cr, c.pairs.map fun p => (cl p.1, cr p.2)⟩

/-- adding items one by one: pairs by `insert`, right items by `insert_right` -/
def insertAll (c : Contents L R) : List (Option L × R) → Contents L R
  | [] => c
  | (some l, r) :: xs => insertAll (insert c l r) xs
  | (none, r) :: xs => insertAll (insertRight c r).2 xs

/-- no pair of the sequence is in the map already when its turn comes -/
def NewPairs (c : Contents L R) : List (Option L × R) → Prop
  | [] => True
  | (some l, r) :: xs => hasPair c l r = false ∧ NewPairs (insert c l r) xs
  | (none, r) :: xs => NewPairs (insertRight c r).2 xs

/-- two results with the same right item and the same left items up to order -/
def SameEntry : Option (List L × R) → Option (List L × R) → Prop
  | none, none => True
  | some a, some b => a.1.Perm b.1 ∧ a.2 = b.2
  | _, _ => False

end GroupSpec

namespace GroupMap
open GroupSpec
variable [RawImpl] {L R : Type} [BEq L] [BEq R]

/-- Every observer of the API describes the map `m` as the contents `c`. -/
structure Shows (m : GroupMap L R) (c : Contents L R) : Prop where
  sound : c.Sound
  iter : ∃ xs, m.iterList = .ok xs ∧ xs.Perm (entries c)
  iterPaired : ∃ ps, m.iterPairedList = .ok ps ∧ ps.Perm c.pairs
  iterUnpaired : m.iterUnpairedList.Perm (lone c)
  iterLeft : m.iterLeft.Perm (c.pairs.map (·.1))
  iterRight : m.iterRight.Perm c.rights
  lenLeft : m.lenLeft = c.pairs.length
  lenRight : m.lenRight = c.rights.length
  isEmpty : m.isEmpty = c.rights.isEmpty
  getRight : ∀ l, m.getRight l = (findL c l).map (·.2)
  getLeft : ∀ r, ∃ ls, m.getLeftList r = .ok ((findR c r).map fun _ => ls) ∧ ls.Perm (group c r)
  containsLeft : ∀ l, m.containsLeft l = c.pairs.any (l == ·.1)
  containsRight : ∀ r, m.containsRight r = c.rights.any (r == ·)
  isRightPaired : ∀ r, m.isRightPaired r = hasGroup c r
  arePaired : ∀ l r, m.arePaired l r = hasPair c l r

/-- A map whose two tables disagree: the left items know the pairs `A`, the right items the pairs `B` (`Shows` is
the case that both are the same). -/
structure ShowsTorn (m : GroupMap L R) (rights : List R) (A B : List (L × R)) : Prop where
  iterPaired : ∃ ps, m.iterPairedList = .ok ps ∧ ps.Perm A
  iterLeft : m.iterLeft.Perm (A.map (·.1))
  lenLeft : m.lenLeft = A.length
  containsLeft : ∀ l, m.containsLeft l = A.any (l == ·.1)
  getRight : ∀ l, m.getRight l = (A.find? (l == ·.1)).map (·.2)
  iterUnpaired : m.iterUnpairedList.Perm (rights.filter fun r => !B.any (r == ·.2))
  iterRight : m.iterRight.Perm rights
  lenRight : m.lenRight = rights.length
  containsRight : ∀ r, m.containsRight r = rights.any (r == ·)
  isRightPaired : ∀ r, m.isRightPaired r = B.any (r == ·.2)
  arePaired : ∀ l r, m.arePaired l r =
    ((A.any fun p => l == p.1 && r == p.2) && B.any fun p => l == p.1 && r == p.2)
  getLeft : ∀ r, (∀ p ∈ B, (r == p.2) = true → A.any (p.1 == ·.1) = true) →
    ∃ ls, m.getLeftList r = .ok ((rights.find? (r == ·)).map fun _ => ls) ∧
      ls.Perm ((B.filter (r == ·.2)).map (·.1))
  getLeftPanics : ∀ r p, p ∈ B → (r == p.2) = true → A.any (p.1 == ·.1) = false →
    m.getLeftList r = .error .unwrapNone

end GroupMap
end Verif
