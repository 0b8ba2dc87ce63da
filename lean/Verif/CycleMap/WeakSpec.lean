import Verif.CycleMap.Machine
/-
List-level specification of `CycleMap` for items whose `==` is any relation at all: it need not be
reflexive (floats with NaN), symmetric or transitive (approximate equality).  Several pairs may then match
one item, and a call that looks one up may pick any of them.  The contents are a list of pairs, up to order.
-/
namespace Verif.CycleWeak
open CycleSpec CycleMap OptionalPair

variable {L R : Type} [BEq L] [BEq R]

/-- no pair has a left item that matches `l` -/
def NoL (c : List (L × R)) (l : L) : Prop := ∀ p ∈ c, (l == p.1) = false

/-- no pair has a right item that matches `r` -/
def NoR (c : List (L × R)) (r : R) : Prop := ∀ p ∈ c, (r == p.2) = false

/-- `l` is looked up and its pair taken out: one of those that match, if there is one -/
def TakeL (c : List (L × R)) (l : L) (o : Option (L × R)) (c' : List (L × R)) : Prop :=
  (o = none ∧ NoL c l ∧ c'.Perm c) ∨ ∃ p, o = some p ∧ (l == p.1) = true ∧ c.Perm (p :: c')

/-- `r` is looked up and its pair taken out -/
def TakeR (c : List (L × R)) (r : R) (o : Option (L × R)) (c' : List (L × R)) : Prop :=
  (o = none ∧ NoR c r ∧ c'.Perm c) ∨ ∃ p, o = some p ∧ (r == p.2) = true ∧ c.Perm (p :: c')

/-- the pairs found for `l` and for `r` may be two different ones, or be missing -/
def Unpaired (c : List (L × R)) (l : L) (r : R) : Prop :=
  NoL c l ∨ NoR c r ∨ ∃ p q d, c.Perm (p :: q :: d) ∧ (l == p.1) = true ∧ (r == q.2) = true

/-- some pair matches both `l` and `r` -/
def Paired (c : List (L × R)) (l : L) (r : R) : Prop := ∃ p ∈ c, (l == p.1) = true ∧ (r == p.2) = true

/-- `insert`: what matched `l` goes, then what matched `r`, and `(l, r)` is added -/
def Insert (c : List (L × R)) (l : L) (r : R) (o₁ o₂ : Option (L × R)) (c' : List (L × R)) : Prop :=
  ∃ c₁ c₂, TakeL c l o₁ c₁ ∧ TakeR c₁ r o₂ c₂ ∧ c'.Perm ((l, r) :: c₂)

/-- `insert` of several pairs -/
def InsertAll (c : List (L × R)) : List (L × R) → List (L × R) → Prop
  | [], c' => c'.Perm c
  | (l, r) :: xs, c' => ∃ o₁ o₂ c₁, Insert c l r o₁ o₂ c₁ ∧ InsertAll c₁ xs c'

/-- `swap_left`: unless `new == old`, what matched `new` goes; then in the pair found for `old` the left item
is replaced -/
def SwapL (c : List (L × R)) (old new : L) (o : OptionalPair L (L × R)) (c' : List (L × R)) : Prop :=
  ∃ eq c₁, (if new == old then eq = none ∧ c₁.Perm c else TakeL c new eq c₁) ∧
    ((NoL c₁ old ∧ o = neither ∧ c'.Perm c₁) ∨
      ∃ p c₂, c₁.Perm (p :: c₂) ∧ (old == p.1) = true ∧ o = ofPair (some p.1, eq) ∧ c'.Perm ((new, p.2) :: c₂))

/-- `swap_right` -/
def SwapR (c : List (L × R)) (old new : R) (o : OptionalPair R (L × R)) (c' : List (L × R)) : Prop :=
  ∃ eq c₁, (if new == old then eq = none ∧ c₁.Perm c else TakeR c new eq c₁) ∧
    ((NoR c₁ old ∧ o = neither ∧ c'.Perm c₁) ∨
      ∃ p c₂, c₁.Perm (p :: c₂) ∧ (old == p.2) = true ∧ o = ofPair (some p.2, eq) ∧ c'.Perm ((p.1, new) :: c₂))

/-- what an iteration shows for the left item of `x`: that item with the partner of a left item that matches it -/
def ShownFrom (x p : L × R) : Prop := (x.1 == p.1) = true ∧ x.2 = p.2

/-- what `iter` may yield: every left item once, each with the partner of some left item that matches it -/
def Seen (c d : List (L × R)) : Prop := (d.map (·.1)).Perm (c.map (·.1)) ∧ ∀ x ∈ d, ∃ p ∈ c, ShownFrom x p

/-- `Step c op o c'`: with contents `c` the call `op` may return `o` and leave `c'`. -/
def Step (c : List (L × R)) : Op L R → Out L R → List (L × R) → Prop
  | .insert l r, o, c' => ∃ o₁ o₂, Insert c l r o₁ o₂ c' ∧ o = .inserted (ofPair (o₁, o₂))
  | .remove l r, o, c' =>
      (∃ p, o = .pair (some p) ∧ (l == p.1) = true ∧ (r == p.2) = true ∧ c.Perm (p :: c')) ∨
      (o = .pair none ∧ Unpaired c l r ∧ c'.Perm c)
  | .removeViaLeft l, o, c' => ∃ x, TakeL c l x c' ∧ o = .pair x
  | .removeViaRight r, o, c' => ∃ x, TakeR c r x c' ∧ o = .pair x
  | .swapLeft old new, o, c' => ∃ x, SwapL c old new x c' ∧ o = .swappedLeft x
  | .swapLeftChecked old e new, o, c' =>
      (Paired c old e ∧ ∃ x, SwapL c old new x c' ∧ o = .swappedLeft x) ∨
      (Unpaired c old e ∧ o = .swappedLeft neither ∧ c'.Perm c)
  | .swapLeftOrInsert old new r, o, c' =>
      (¬ NoL c old ∧ ∃ x, SwapL c old new x c' ∧ o = .swappedLeft x) ∨
      (NoL c old ∧ ∃ o₁ o₂, Insert c new r o₁ o₂ c' ∧ o = .swappedLeft ((ofPair (o₁, o₂)).mapLeft (·.1)))
  | .swapRight old new, o, c' => ∃ x, SwapR c old new x c' ∧ o = .swappedRight x
  | .swapRightChecked old e new, o, c' =>
      (Paired c e old ∧ ∃ x, SwapR c old new x c' ∧ o = .swappedRight x) ∨
      (Unpaired c e old ∧ o = .swappedRight neither ∧ c'.Perm c)
  | .swapRightOrInsert old new l, o, c' =>
      (¬ NoR c old ∧ ∃ x, SwapR c old new x c' ∧ o = .swappedRight x) ∨
      (NoR c old ∧ ∃ o₂, Insert c l new none o₂ c' ∧ o = .swappedRight (ofPair (none, o₂)))
  | .getLeft r, o, c' =>
      ((NoR c r ∧ o = .left none) ∨ ∃ p ∈ c, (r == p.2) = true ∧ o = .left (some p.1)) ∧ c'.Perm c
  | .getRight l, o, c' =>
      ((NoL c l ∧ o = .right none) ∨ ∃ p ∈ c, (l == p.1) = true ∧ o = .right (some p.2)) ∧ c'.Perm c
  | .containsLeft l, o, c' => o = .bool (c.any fun p => l == p.1) ∧ c'.Perm c
  | .containsRight r, o, c' => o = .bool (c.any fun p => r == p.2) ∧ c'.Perm c
  | .arePaired l r, o, c' =>
      ((Paired c l r ∧ o = .bool true) ∨ (Unpaired c l r ∧ o = .bool false)) ∧ c'.Perm c
  | .len, o, c' => o = .nat c.length ∧ c'.Perm c
  | .isEmpty, o, c' => o = .bool c.isEmpty ∧ c'.Perm c
  | .clear, o, c' => o = .unit ∧ c' = []
  | .iter, o, c' => (∃ d, Seen c d ∧ o = .pairs d) ∧ c'.Perm c
  | .iterLeft, o, c' => (∃ d, d.Perm (c.map (·.1)) ∧ o = .lefts d) ∧ c'.Perm c
  | .iterRight, o, c' => (∃ d, d.Perm (c.map (·.2)) ∧ o = .rights d) ∧ c'.Perm c
  | .drain n, o, c' => c.length ≤ n ∧ ∃ d, d.Perm c ∧ o = .pairs d ∧ c' = []
  | .drainFilter _ f s n, o, c' =>
      ∃ d, d.Perm c ∧ o = .pairs ((split (fun s p => f s p.1 p.2) d s).1.take n) ∧
        c'.Perm (split (fun s p => f s p.1 p.2) d s).2.1
  | .drainFilterAll _ f s, o, c' =>
      ∃ d, d.Perm c ∧ o = .pairs (split (fun s p => f s p.1 p.2) d s).1 ∧
        c'.Perm (split (fun s p => f s p.1 p.2) d s).2.1
  /- the closure is asked about what an iteration shows; of the pairs these were shown from, the rejected ones go -/
  | .retain _ f s, o, c' => o = .unit ∧ ∃ ds d, Seen c ds ∧ c.Perm (c' ++ d) ∧
      (∀ p ∈ d, ∃ x ∈ (split (fun s p => f s p.1 p.2) ds s).2.1, ShownFrom x p) ∧
      ∀ x ∈ (split (fun s p => f s p.1 p.2) ds s).2.1, ∃ p ∈ d, ShownFrom x p
  | .extend xs, o, c' => o = .unit ∧ InsertAll c xs c'
  | .reserve _, o, c' => o = .unit ∧ c'.Perm c
  | .tryReserve _ a b, o, c' => o = .bool (a && b) ∧ c'.Perm c
  | .shrinkTo _, o, c' => o = .unit ∧ c'.Perm c
  | .shrinkToFit, o, c' => o = .unit ∧ c'.Perm c
  | .clone cl cr, o, c' => o = .unit ∧ c'.Perm (c.map fun p => (cl p.1, cr p.2))

/-- A history on a list of pairs. -/
def Steps (c : List (L × R)) : List (Op L R) → List (Out L R) → List (L × R) → Prop
  | [], os, c' => os = [] ∧ c'.Perm c
  | op :: ops, os, c' => ∃ o os' c₁, os = o :: os' ∧ Step c op o c₁ ∧ Steps c₁ ops os' c'

/-- The calls covered: all, but a `drain` has to be run to its end (C21) and a `Clone` has to give an item
that matches the original. -/
def Sane (c : List (L × R)) : Op L R → Prop
  | .drain n => c.length ≤ n
  | .clone cl cr => (∀ x, (cl x == x) = true) ∧ (∀ x, (cr x == x) = true)
  | _ => True

/-- The calls that are certain not to panic: `iter` and `retain` look every left item up again, so they want
each left item to match itself; `swap_right_or_insert` panics if its left item has a match (C18). -/
def Calm (c : List (L × R)) : Op L R → Prop
  | .iter => ∀ p ∈ c, (p.1 == p.1) = true
  | .retain _ _ _ => ∀ p ∈ c, (p.1 == p.1) = true
  | .swapRightOrInsert old _ l => ¬ NoR c old ∨ NoL c l
  | _ => True

/-- A history of covered calls, however the choices turn out. -/
def SaneRun (c : List (L × R)) : List (Op L R) → Prop
  | [] => True
  | op :: ops => Sane c op ∧ ∀ o c', Step c op o c' → SaneRun c' ops

/-- A history of covered calls that are certain not to panic. -/
def CalmRun (c : List (L × R)) : List (Op L R) → Prop
  | [] => True
  | op :: ops => (Sane c op ∧ Calm c op) ∧ ∀ o c', Step c op o c' → CalmRun c' ops

end Verif.CycleWeak

namespace Verif.CycleMap
variable [RawImpl] {L R : Type} [BEq L] [BEq R]

/-- The two sides of the map are the two sides of the list of pairs `c`: both hold every item of their side
once, and draining the map to the end pairs them up as in `c`. -/
structure Links (m : CycleMap L R) (c : List (L × R)) : Prop where
  len : m.len = c.length
  iterLeft : m.iterLeft.Perm (c.map (·.1))
  iterRight : m.iterRight.Perm (c.map (·.2))
  drain : ∀ n, c.length ≤ n → ∃ (d : List (L × R)) (m' : CycleMap L R),
    m.drainTake n = .ok (d, m') ∧ d.Perm c ∧ m'.iterLeft = [] ∧ m'.iterRight = []

end Verif.CycleMap
