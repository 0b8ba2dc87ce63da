import Verif.PartialMap.Model
import Verif.CycleMap.Spec
/-
List-level specification of `PartialCycleMap`: the contents of a map are a list of entries (order
irrelevant); an entry is a pair `someBoth l r`, a lone left item `someLeft l` or a lone right item `someRight r`.
Nothing here mentions hashes, ids or tables.  (`CycleSpec.split` is shared with `CycleMap`.)
-/
namespace Verif.PartialSpec
open OptionalPair

variable {L R : Type} [BEq L] [BEq R]

/-- the left item of an entry -/
def leftOf : OptionalPair L R → Option L
  | someLeft l | someBoth l _ => some l
  | _ => none

/-- the right item of an entry -/
def rightOf : OptionalPair L R → Option R
  | someRight r | someBoth _ r => some r
  | _ => none

/-- the entry is a pair -/
def isPair : OptionalPair L R → Bool
  | someBoth _ _ => true
  | _ => false

/-- the pair an entry is, if it is one -/
def pairOf : OptionalPair L R → Option (L × R)
  | someBoth l r => some (l, r)
  | _ => none

/-- the left item of the entry equals `l` -/
def hasL (l : L) : OptionalPair L R → Bool
  | someLeft a | someBoth a _ => l == a
  | _ => false

/-- the right item of the entry equals `r` -/
def hasR (r : R) : OptionalPair L R → Bool
  | someRight b | someBoth _ b => r == b
  | _ => false

/-- the two entries have no item in common -/
def Disj (x y : OptionalPair L R) : Prop :=
  (∀ l, leftOf x = some l → hasL l y = false) ∧ (∀ r, rightOf x = some r → hasR r y = false)

/-- no two entries share a left item or a right item, and every entry has an item -/
def OneToOne (c : List (OptionalPair L R)) : Prop := c.Pairwise Disj ∧ neither ∉ c

/-- the entry of the left item `l` -/
def findL (c : List (OptionalPair L R)) (l : L) : Option (OptionalPair L R) := c.find? (hasL l)

/-- the entry of the right item `r` -/
def findR (c : List (OptionalPair L R)) (r : R) : Option (OptionalPair L R) := c.find? (hasR r)

/-- all entries but the one of `l` -/
def eraseL (c : List (OptionalPair L R)) (l : L) : List (OptionalPair L R) := c.filter fun e => !hasL l e

/-- all entries but the one of `r` -/
def eraseR (c : List (OptionalPair L R)) (r : R) : List (OptionalPair L R) := c.filter fun e => !hasR r e

/-- the entries that contain neither `l` nor `r` -/
def others (c : List (OptionalPair L R)) (l : L) (r : R) : List (OptionalPair L R) :=
  c.filter fun e => !hasL l e && !hasR r e

/-- `l` and `r` form a pair -/
def hasPair (c : List (OptionalPair L R)) (l : L) (r : R) : Bool := c.any fun e => hasL l e && hasR r e

end Verif.PartialSpec

namespace Verif.PartialMap
open PartialSpec OptionalPair
variable [RawImpl] {L R : Type} [BEq L] [BEq R]

/-- Every observer of the API describes the map `m` as the entries `c`.  (`iter` does not visit lone right
items, C50; the other observers say what their names say.) -/
structure Shows (m : PartialMap L R) (c : List (OptionalPair L R)) : Prop where
  oneToOne : OneToOne c
  iter : m.iterList.Perm (c.filter fun e => (leftOf e).isSome)
  iterPaired : ∃ ps, m.iterPairedList = .ok ps ∧ ps.Perm (c.filterMap pairOf)
  iterUnpaired : m.iterUnpairedList.Perm (c.filter fun e => !isPair e)
  iterLeft : m.iterLeft.Perm (c.filterMap leftOf)
  iterRight : m.iterRight.Perm (c.filterMap rightOf)
  lenLeft : m.lenLeft = (c.filterMap leftOf).length
  lenRight : m.lenRight = (c.filterMap rightOf).length
  isEmpty : m.isEmpty = c.isEmpty
  getRight : ∀ l, m.getRight l = (findL c l).bind rightOf
  getLeft : ∀ r, m.getLeft r = (findR c r).bind leftOf
  containsLeft : ∀ l, m.containsLeft l = c.any (hasL l)
  containsRight : ∀ r, m.containsRight r = c.any (hasR r)
  isLeftPaired : ∀ l, m.isLeftPaired l = c.any fun e => isPair e && hasL l e
  isRightPaired : ∀ r, m.isRightPaired r = c.any fun e => isPair e && hasR r e
  arePaired : ∀ l r, m.arePaired l r = hasPair c l r

end Verif.PartialMap

namespace Verif.PartialSpec
open OptionalPair
variable {L R : Type} [BEq L] [BEq R]

/-! What the calls do to the list of entries: returned value and new contents. -/

/-- `insert`: the entries of `l` and then of `r` go and are returned -/
def insert (c : List (OptionalPair L R)) (l : L) (r : R) :
    (OptionalPair L R × OptionalPair L R) × List (OptionalPair L R) :=
  (((findL c l).getD neither, if hasPair c l r then neither else (findR c r).getD neither),
   someBoth l r :: others c l r)

/-- `insert_left` -/
def insertLeft (c : List (OptionalPair L R)) (l : L) : OptionalPair L R × List (OptionalPair L R) :=
  ((findL c l).getD neither, someLeft l :: eraseL c l)

/-- `insert_right` -/
def insertRight (c : List (OptionalPair L R)) (r : R) : OptionalPair L R × List (OptionalPair L R) :=
  ((findR c r).getD neither, someRight r :: eraseR c r)

/-- `pair`: joins two lone items -/
def pair (c : List (OptionalPair L R)) (l : L) (r : R) : Bool × List (OptionalPair L R) :=
  match findL c l, findR c r with
  | some (someLeft a), some (someRight b) => (true, someBoth a b :: others c l r)
  | _, _ => (false, c)

/-- an optional left item and an optional right item as lone entries -/
def lones (a : Option L) (b : Option R) : List (OptionalPair L R) :=
  (a.map someLeft).toList ++ (b.map someRight).toList

/-- `pair_forced`: the stored items `a`, `b` become partners; their former partners stay as lone items and
are returned -/
def pairForced (c : List (OptionalPair L R)) (l : L) (r : R) : OptionalPair L R × List (OptionalPair L R) :=
  match (findL c l).bind leftOf, (findR c r).bind rightOf with
  | some a, some b =>
    if hasPair c l r then (neither, c) else
      (ofPair ((findR c r).bind leftOf, (findL c l).bind rightOf),
       someBoth a b :: (lones ((findR c r).bind leftOf) ((findL c l).bind rightOf) ++ others c l r))
  | _, _ => (neither, c)

/-- `pair_forced_remove`: the same, but the former partners go -/
def pairForcedRemove (c : List (OptionalPair L R)) (l : L) (r : R) :
    OptionalPair L R × List (OptionalPair L R) :=
  match (findL c l).bind leftOf, (findR c r).bind rightOf with
  | some a, some b =>
    if hasPair c l r then (neither, c) else
      (ofPair ((findR c r).bind leftOf, (findL c l).bind rightOf), someBoth a b :: others c l r)
  | _, _ => (neither, c)

/-- `unpair`: the pair falls apart into two lone items -/
def unpair (c : List (OptionalPair L R)) (l : L) (r : R) : Bool × List (OptionalPair L R) :=
  if hasPair c l r then
    (true, lones ((findL c l).bind leftOf) ((findR c r).bind rightOf) ++ others c l r)
  else (false, c)

/-- `remove` -/
def remove (c : List (OptionalPair L R)) (l : L) (r : R) : Option (L × R) × List (OptionalPair L R) :=
  if hasPair c l r then ((findL c l).bind pairOf, eraseL c l) else (none, c)

/-- `remove_left`: the partner stays -/
def removeLeft (c : List (OptionalPair L R)) (l : L) : Option L × List (OptionalPair L R) :=
  ((findL c l).bind leftOf, lones none ((findL c l).bind rightOf) ++ eraseL c l)

/-- `remove_right`: the partner stays -/
def removeRight (c : List (OptionalPair L R)) (r : R) : Option R × List (OptionalPair L R) :=
  ((findR c r).bind rightOf, lones ((findR c r).bind leftOf) none ++ eraseR c r)

/-- the entry with another left item -/
def setLeft (new : L) : OptionalPair L R → OptionalPair L R
  | someLeft _ => someLeft new
  | someBoth _ r => someBoth new r
  | e => e

/-- the entry with another right item -/
def setRight (new : R) : OptionalPair L R → OptionalPair L R
  | someRight _ => someRight new
  | someBoth l _ => someBoth l new
  | e => e

/-- `swap_left`: in the entry of `old` the left item becomes `new`; another entry of `new` goes -/
def swapLeft (c : List (OptionalPair L R)) (old new : L) :
    OptionalPair L (OptionalPair L R) × List (OptionalPair L R) :=
  match findL c old with
  | some e =>
    (ofPair (leftOf e, if new == old then none else findL c new),
     setLeft new e :: c.filter fun e => !hasL old e && !hasL new e)
  /- The documentation does not say so, but an entry of `new` is dropped in this case, too (C47). -/
  | none => (neither, eraseL c new)

/-- `swap_right` -/
def swapRight (c : List (OptionalPair L R)) (old new : R) :
    OptionalPair R (OptionalPair L R) × List (OptionalPair L R) :=
  match findR c old with
  | some e =>
    (ofPair (rightOf e, if new == old then none else findR c new),
     setRight new e :: c.filter fun e => !hasR old e && !hasR new e)
  | none => (neither, eraseR c new)

/-- adding one element of a sequence -/
def insertEntry (c : List (OptionalPair L R)) : OptionalPair L R → List (OptionalPair L R)
  | neither => c
  | someLeft l => (insertLeft c l).2
  | someRight r => (insertRight c r).2
  | someBoth l r => (insert c l r).2

/-- adding the elements of a sequence in order -/
def insertAll (c xs : List (OptionalPair L R)) : List (OptionalPair L R) := xs.foldl insertEntry c

/-- applying item functions to an entry -/
def mapEntry (f : L → L) (g : R → R) : OptionalPair L R → OptionalPair L R
  | neither => neither
  | someLeft l => someLeft (f l)
  | someRight r => someRight (g r)
  | someBoth l r => someBoth (f l) (g r)

/-- the right item of an entry as a lone item -/
def asRight : OptionalPair L R → OptionalPair L R
  | someBoth _ r => someRight r
  | e => e

end Verif.PartialSpec
