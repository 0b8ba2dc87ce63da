import Verif.CycleMap.Model
/-
List-level specification of `CycleMap`: the contents of a map are a list of pairs (order irrelevant).
Nothing here mentions hashes, ids or tables.
-/
namespace Verif.CycleSpec
open OptionalPair

variable {L R : Type} [BEq L] [BEq R]

/-- no two pairs share a left item or a right item -/
def OneToOne (c : List (L × R)) : Prop :=
  c.Pairwise fun p q => (p.1 == q.1) = false ∧ (p.2 == q.2) = false

/-- the pair whose left item equals `l` -/
def findL (c : List (L × R)) (l : L) : Option (L × R) := c.find? fun p => l == p.1

/-- the pair whose right item equals `r` -/
def findR (c : List (L × R)) (r : R) : Option (L × R) := c.find? fun p => r == p.2

/-- all pairs but the one of `l` -/
def eraseL (c : List (L × R)) (l : L) : List (L × R) := c.filter fun p => !(l == p.1)

/-- all pairs but the one of `r` -/
def eraseR (c : List (L × R)) (r : R) : List (L × R) := c.filter fun p => !(r == p.2)

/-- `l` and `r` form a pair -/
def hasPair (c : List (L × R)) (l : L) (r : R) : Bool := c.any fun p => l == p.1 && r == p.2

/-- Running a stateful predicate over a list in order: the elements it accepted, those it rejected and
its final state. -/
def split {σ α : Type} (f : σ → α → Bool × σ) : List α → σ → List α × List α × σ
  | [], s => ([], [], s)
  | a :: as, s =>
    match f s a with
    | (true, s') => let (x, y, z) := split f as s'; (a :: x, y, z)
    | (false, s') => let (x, y, z) := split f as s'; (x, a :: y, z)

end Verif.CycleSpec

namespace Verif.CycleMap
open CycleSpec
variable [RawImpl] {L R : Type} [BEq L] [BEq R]

/-- Every observer of the API describes the map `m` as the one-to-one set of pairs `c`. -/
structure Shows (m : CycleMap L R) (c : List (L × R)) : Prop where
  oneToOne : OneToOne c
  iter : ∃ ps, m.iterList = .ok ps ∧ ps.Perm c
  iterLeft : m.iterLeft.Perm (c.map (·.1))
  iterRight : m.iterRight.Perm (c.map (·.2))
  len : m.len = c.length
  isEmpty : m.isEmpty = c.isEmpty
  getRight : ∀ l, m.getRight l = (findL c l).map (·.2)
  getLeft : ∀ r, m.getLeft r = (findR c r).map (·.1)
  containsLeft : ∀ l, m.containsLeft l = c.any (fun p => l == p.1)
  containsRight : ∀ r, m.containsRight r = c.any (fun p => r == p.2)
  arePaired : ∀ l r, m.arePaired l r = hasPair c l r

end Verif.CycleMap

namespace Verif.CycleSpec
open OptionalPair
variable {L R : Type} [BEq L] [BEq R]

/-! What the operations that are not plain lookups do to the list of pairs. -/

/-- `insert`: returned value and new contents -/
def insert (c : List (L × R)) (l : L) (r : R) : InsertOptional L R × List (L × R) :=
  (ofPair (findL c l, if hasPair c l r then none else findR c r),
   (l, r) :: c.filter fun p => !(l == p.1) && !(r == p.2))

/-- `swap_left` when `old` is paired: its pair `(a, b)` becomes `(new, b)` and another pair of `new` is
dropped -/
def swapLeft (c : List (L × R)) (old new : L) : OptionalPair L (L × R) × List (L × R) :=
  match findL c old with
  | some (a, b) =>
    (ofPair (some a, if new == old then none else findL c new),
     (new, b) :: c.filter fun p => !(old == p.1) && !(new == p.1))
  /- The documentation does not say so, but a pair of `new` is dropped in this case, too (C13). -/
  | none => (neither, eraseL c new)

/-- `swap_right` -/
def swapRight (c : List (L × R)) (old new : R) : OptionalPair R (L × R) × List (L × R) :=
  match findR c old with
  | some (a, b) =>
    (ofPair (some b, if new == old then none else findR c new),
     (a, new) :: c.filter fun p => !(old == p.2) && !(new == p.2))
  | none => (neither, eraseR c new)

/-- inserting the elements of a sequence in order -/
def insertAll (c : List (L × R)) (xs : List (L × R)) : List (L × R) :=
  xs.foldl (fun c x => (insert c x.1 x.2).2) c

end Verif.CycleSpec
