import Verif.PartialMap.Machine
/-
List-level specification of `PartialCycleMap` for items whose `==` is any relation at all: it need not be
reflexive, symmetric or transitive.  Several entries may then match one item, and a call that looks one up may
pick any of them.  The contents are a list of entries, up to order.
-/
namespace Verif.PartialWeak
open PartialSpec PartialMap OptionalPair
open CycleSpec (split)

variable {L R : Type} [BEq L] [BEq R]

/-- no entry has a left item that matches `l` -/
def NoL (c : List (OptionalPair L R)) (l : L) : Prop := ∀ e ∈ c, hasL l e = false

/-- no entry has a right item that matches `r` -/
def NoR (c : List (OptionalPair L R)) (r : R) : Prop := ∀ e ∈ c, hasR r e = false

/-- `l` is looked up and its entry taken out: one of those that match, if there is one -/
def TakeL (c : List (OptionalPair L R)) (l : L) (o : OptionalPair L R) (c' : List (OptionalPair L R)) : Prop :=
  (o = neither ∧ NoL c l ∧ c'.Perm c) ∨ (hasL l o = true ∧ c.Perm (o :: c'))

/-- `r` is looked up and its entry taken out -/
def TakeR (c : List (OptionalPair L R)) (r : R) (o : OptionalPair L R) (c' : List (OptionalPair L R)) : Prop :=
  (o = neither ∧ NoR c r ∧ c'.Perm c) ∨ (hasR r o = true ∧ c.Perm (o :: c'))

/-- the entries found for `l` and for `r` may be two different ones, or be missing -/
def Unpaired (c : List (OptionalPair L R)) (l : L) (r : R) : Prop :=
  NoL c l ∨ NoR c r ∨ ∃ p q d, c.Perm (p :: q :: d) ∧ hasL l p = true ∧ hasR r q = true

/-- some entry matches both `l` and `r` -/
def Paired (c : List (OptionalPair L R)) (l : L) (r : R) : Prop := ∃ e ∈ c, hasL l e = true ∧ hasR r e = true

/-- `insert`: what matched `l` goes, then what matched `r`, and the pair is added -/
def Insert (c : List (OptionalPair L R)) (l : L) (r : R) (o₁ o₂ : OptionalPair L R) (c' : List (OptionalPair L R)) : Prop :=
  ∃ c₁ c₂, TakeL c l o₁ c₁ ∧ TakeR c₁ r o₂ c₂ ∧ c'.Perm (someBoth l r :: c₂)

/-- `insert_left` -/
def InsertLeft (c : List (OptionalPair L R)) (l : L) (o : OptionalPair L R) (c' : List (OptionalPair L R)) : Prop :=
  ∃ c₁, TakeL c l o c₁ ∧ c'.Perm (someLeft l :: c₁)

/-- `insert_right` -/
def InsertRight (c : List (OptionalPair L R)) (r : R) (o : OptionalPair L R) (c' : List (OptionalPair L R)) : Prop :=
  ∃ c₁, TakeR c r o c₁ ∧ c'.Perm (someRight r :: c₁)

/-- inserting one element of a sequence -/
def InsertEntry (c : List (OptionalPair L R)) : OptionalPair L R → List (OptionalPair L R) → Prop
  | neither, c' => c'.Perm c
  | someLeft l, c' => ∃ o, InsertLeft c l o c'
  | someRight r, c' => ∃ o, InsertRight c r o c'
  | someBoth l r, c' => ∃ o₁ o₂, Insert c l r o₁ o₂ c'

/-- inserting the elements of a sequence in order -/
def InsertAll (c : List (OptionalPair L R)) : List (OptionalPair L R) → List (OptionalPair L R) → Prop
  | [], c' => c'.Perm c
  | x :: xs, c' => ∃ c₁, InsertEntry c x c₁ ∧ InsertAll c₁ xs c'

/-- `pair`: joins the entries found if both are lone items -/
def Pair (c : List (OptionalPair L R)) (l : L) (r : R) (b : Bool) (c' : List (OptionalPair L R)) : Prop :=
  (b = true ∧ ∃ x y d, c.Perm (someLeft x :: someRight y :: d) ∧ (l == x) = true ∧ (r == y) = true ∧
    c'.Perm (someBoth x y :: d)) ∨
  (b = false ∧ c'.Perm c ∧ (NoL c l ∨ NoR c r ∨ ∃ e ∈ c, isPair e = true ∧ (hasL l e = true ∨ hasR r e = true)))

/-- `pair_forced` (`keep`) and `pair_forced_remove`: the items found become partners; their former partners are
returned and stay as lone items (`keep`) or go -/
def Force (keep : Bool) (c : List (OptionalPair L R)) (l : L) (r : R) (o : OptionalPair L R)
    (c' : List (OptionalPair L R)) : Prop :=
  (o = neither ∧ (NoL c l ∨ NoR c r ∨ Paired c l r) ∧ c'.Perm c) ∨
  ∃ p q d x y, c.Perm (p :: q :: d) ∧ leftOf p = some x ∧ rightOf q = some y ∧ (l == x) = true ∧ (r == y) = true ∧
    o = ofPair (leftOf q, rightOf p) ∧
    c'.Perm (someBoth x y :: ((if keep then lones (leftOf q) (rightOf p) else []) ++ d))

/-- `unpair`: the pair found falls apart -/
def Unpair (c : List (OptionalPair L R)) (l : L) (r : R) (b : Bool) (c' : List (OptionalPair L R)) : Prop :=
  (b = true ∧ ∃ x y d, c.Perm (someBoth x y :: d) ∧ (l == x) = true ∧ (r == y) = true ∧
    c'.Perm (someLeft x :: someRight y :: d)) ∨
  (b = false ∧ Unpaired c l r ∧ c'.Perm c)

/-- `remove_left`: the partner stays -/
def RemoveLeft (c : List (OptionalPair L R)) (l : L) (o : Option L) (c' : List (OptionalPair L R)) : Prop :=
  ∃ e c₁, TakeL c l e c₁ ∧ o = leftOf e ∧ c'.Perm (lones none (rightOf e) ++ c₁)

/-- `remove_right`: the partner stays -/
def RemoveRight (c : List (OptionalPair L R)) (r : R) (o : Option R) (c' : List (OptionalPair L R)) : Prop :=
  ∃ e c₁, TakeR c r e c₁ ∧ o = rightOf e ∧ c'.Perm (lones (leftOf e) none ++ c₁)

/-- `swap_left`: unless `new == old`, what matched `new` goes; then in the entry found for `old` the left item is
replaced -/
def SwapL (c : List (OptionalPair L R)) (old new : L) (o : OptionalPair L (OptionalPair L R))
    (c' : List (OptionalPair L R)) : Prop :=
  ∃ eq c₁, (if new == old then eq = neither ∧ c₁.Perm c else TakeL c new eq c₁) ∧
    ((NoL c₁ old ∧ o = neither ∧ c'.Perm c₁) ∨
      ∃ e x c₂, c₁.Perm (e :: c₂) ∧ leftOf e = some x ∧ (old == x) = true ∧
        ((eq = neither ∧ o = someLeft x) ∨ (eq ≠ neither ∧ o = someBoth x eq)) ∧ c'.Perm (setLeft new e :: c₂))

/-- `swap_right` -/
def SwapR (c : List (OptionalPair L R)) (old new : R) (o : OptionalPair R (OptionalPair L R))
    (c' : List (OptionalPair L R)) : Prop :=
  ∃ eq c₁, (if new == old then eq = neither ∧ c₁.Perm c else TakeR c new eq c₁) ∧
    ((NoR c₁ old ∧ o = neither ∧ c'.Perm c₁) ∨
      ∃ e x c₂, c₁.Perm (e :: c₂) ∧ rightOf e = some x ∧ (old == x) = true ∧
        ((eq = neither ∧ o = someLeft x) ∨ (eq ≠ neither ∧ o = someBoth x eq)) ∧ c'.Perm (setRight new e :: c₂))

/-- what an iteration shows for the left item `x`: `x` with the partner of an entry `e` that matches it -/
def ShownFrom (x e : OptionalPair L R) : Prop := ∃ a, leftOf x = some a ∧ hasL a e = true ∧ x = setLeft a e

/-- what `iter` may yield: every left item once, each with the partner of some entry that matches it, if any -/
def Seen (c d : List (OptionalPair L R)) : Prop :=
  (d.filterMap leftOf).Perm (c.filterMap leftOf) ∧
  ∀ x ∈ d, (∃ a, NoL c a ∧ x = someLeft a) ∨ ∃ e ∈ c, ShownFrom x e

/-- the lone item `x` matches the entry `e` -/
def Matches (x e : OptionalPair L R) : Prop :=
  (∃ a, x = someLeft a ∧ hasL a e = true) ∨ ∃ b, x = someRight b ∧ hasR b e = true

/-- `Step c op o c'`: with contents `c` the call `op` may return `o` and leave `c'`. -/
def Step (c : List (OptionalPair L R)) : Op L R → Out L R → List (OptionalPair L R) → Prop
  | .insert l r, o, c' => ∃ o₁ o₂, Insert c l r o₁ o₂ c' ∧ o = .twoEntries (o₁, o₂)
  | .insertLeft l, o, c' => ∃ x, InsertLeft c l x c' ∧ o = .entry x
  | .insertRight r, o, c' => ∃ x, InsertRight c r x c' ∧ o = .entry x
  | .pair l r, o, c' => ∃ b, Pair c l r b c' ∧ o = .bool b
  | .pairForced l r, o, c' => ∃ x, Force true c l r x c' ∧ o = .entry x
  | .pairForcedRemove l r, o, c' => ∃ x, Force false c l r x c' ∧ o = .entry x
  | .unpair l r, o, c' => ∃ b, Unpair c l r b c' ∧ o = .bool b
  | .remove l r, o, c' =>
      (∃ x y, o = .pair (some (x, y)) ∧ (l == x) = true ∧ (r == y) = true ∧ c.Perm (someBoth x y :: c')) ∨
      (o = .pair none ∧ Unpaired c l r ∧ c'.Perm c)
  | .removeViaLeft l, o, c' => ∃ x, TakeL c l x c' ∧ o = .entry x
  | .removeViaRight r, o, c' => ∃ x, TakeR c r x c' ∧ o = .entry x
  | .removeLeft l, o, c' => ∃ x, RemoveLeft c l x c' ∧ o = .left x
  | .removeRight r, o, c' => ∃ x, RemoveRight c r x c' ∧ o = .right x
  | .swapLeft old new, o, c' => ∃ x, SwapL c old new x c' ∧ o = .swappedLeft x
  | .swapLeftChecked old e new, o, c' =>
      (Paired c old e ∧ ∃ x, SwapL c old new x c' ∧ o = .swappedLeft x) ∨
      (Unpaired c old e ∧ o = .swappedLeft neither ∧ c'.Perm c)
  | .swapLeftOrInsert old new r, o, c' =>
      (¬ NoL c old ∧ ∃ x, SwapL c old new x c' ∧ o = .swappedLeft x) ∨
      (NoL c old ∧ ∃ o₂, Insert c new r neither o₂ c' ∧
        ((o₂ = neither ∧ o = .swappedLeft neither) ∨ (o₂ ≠ neither ∧ o = .swappedLeft (someRight o₂))))
  | .swapRight old new, o, c' => ∃ x, SwapR c old new x c' ∧ o = .swappedRight x
  | .swapRightChecked old e new, o, c' =>
      (Paired c e old ∧ ∃ x, SwapR c old new x c' ∧ o = .swappedRight x) ∨
      (Unpaired c e old ∧ o = .swappedRight neither ∧ c'.Perm c)
  | .swapRightOrInsert old new l, o, c' =>
      (¬ NoR c old ∧ ∃ x, SwapR c old new x c' ∧ o = .swappedRight x) ∨
      (NoR c old ∧ ∃ o₁, Insert c l new o₁ neither c' ∧
        ((o₁ = neither ∧ o = .swappedRight neither) ∨ (o₁ ≠ neither ∧ o = .swappedRight (someRight o₁))))
  | .getLeft r, o, c' => ((NoR c r ∧ o = .left none) ∨ ∃ e ∈ c, hasR r e = true ∧ o = .left (leftOf e)) ∧ c'.Perm c
  | .getRight l, o, c' => ((NoL c l ∧ o = .right none) ∨ ∃ e ∈ c, hasL l e = true ∧ o = .right (rightOf e)) ∧ c'.Perm c
  | .containsLeft l, o, c' => o = .bool (c.any (hasL l)) ∧ c'.Perm c
  | .containsRight r, o, c' => o = .bool (c.any (hasR r)) ∧ c'.Perm c
  | .isLeftPaired l, o, c' =>
      ((NoL c l ∧ o = .bool false) ∨ ∃ e ∈ c, hasL l e = true ∧ o = .bool (isPair e)) ∧ c'.Perm c
  | .isRightPaired r, o, c' =>
      ((NoR c r ∧ o = .bool false) ∨ ∃ e ∈ c, hasR r e = true ∧ o = .bool (isPair e)) ∧ c'.Perm c
  | .arePaired l r, o, c' =>
      ((Paired c l r ∧ o = .bool true) ∨ (Unpaired c l r ∧ o = .bool false)) ∧ c'.Perm c
  | .lenLeft, o, c' => o = .nat (c.filterMap leftOf).length ∧ c'.Perm c
  | .lenRight, o, c' => o = .nat (c.filterMap rightOf).length ∧ c'.Perm c
  | .isEmpty, o, c' => o = .bool c.isEmpty ∧ c'.Perm c
  | .clear, o, c' => o = .unit ∧ c' = []
  | .iter, o, c' => (∃ d, Seen c d ∧ o = .entries d) ∧ c'.Perm c
  | .iterPaired, o, c' => (∃ d, d.Perm (c.filterMap pairOf) ∧ o = .pairs d) ∧ c'.Perm c
  | .iterUnpaired, o, c' => (∃ d, d.Perm (c.filter fun e => !isPair e) ∧ o = .entries d) ∧ c'.Perm c
  | .iterLeft, o, c' => (∃ d, d.Perm (c.filterMap leftOf) ∧ o = .lefts d) ∧ c'.Perm c
  | .iterRight, o, c' => (∃ d, d.Perm (c.filterMap rightOf) ∧ o = .rights d) ∧ c'.Perm c
  | .drain n, o, c' => ∃ (d : List (OptionalPair L R)) (x : Option (OptionalPair L R)),
      d.Perm (c.filter fun e => (leftOf e).isSome) ∧ (x = none ↔ ∀ e ∈ c, (leftOf e).isSome = true) ∧
      (∀ e, x = some e → e ∈ c ∧ leftOf e = none) ∧ o = .entries ((d ++ x.toList).take n) ∧ c' = []
  | .drainFilter _ f s n, o, c' => ∃ d1 us d2 : List (OptionalPair L R),
      (d1 ++ us).Perm c ∧ (∀ e ∈ d1, (leftOf e).isSome = true) ∧ (∀ e ∈ us, leftOf e = none) ∧
      (d2 ++ (split f d1 s).2.1.filter fun e => (rightOf e).isNone).Perm ((split f d1 s).2.1 ++ us) ∧
      (∀ e ∈ d2, (rightOf e).isSome = true) ∧
      o = .entries (((split f d1 s).1 ++
        (split (fun s e => f s (asRight e)) d2 (split f d1 s).2.2).1.map asRight).take n) ∧
      c'.Perm ((split (fun s e => f s (asRight e)) d2 (split f d1 s).2.2).2.1 ++
          (split f d1 s).2.1.filter fun e => (rightOf e).isNone)
  /- the closure is asked about what an iteration shows; of the entries these were shown from, the accepted
  ones go -/
  | .retain _ f s, o, c' => o = .unit ∧ ∃ ds d, Seen c ds ∧ c.Perm (c' ++ d) ∧
      (∀ e ∈ d, ∃ x ∈ (split f ds s).1, ShownFrom x e) ∧ ∀ x ∈ (split f ds s).1, ∃ e ∈ d, ShownFrom x e
  /- the closure is asked about every pair; an entry that matches the left item of an accepted pair goes, if it is
  a pair itself -/
  | .retainPaired _ f s, o, c' => o = .unit ∧ ∃ ds d, ds.Perm (c.filterMap pairOf) ∧ c.Perm (c' ++ d) ∧
      (∀ e ∈ d, isPair e = true ∧ ∃ x ∈ (split (fun s p => f s p.1 p.2) ds s).1, hasL x.1 e = true) ∧
      ∀ x ∈ (split (fun s p => f s p.1 p.2) ds s).1, ∃ e ∈ c, hasL x.1 e = true ∧ (isPair e = true → e ∈ d)
  /- the closure is asked about every lone item; a lone item that matches an accepted one goes -/
  | .retainUnpaired _ f s, o, c' => o = .unit ∧ ∃ ds d, ds.Perm (c.filter fun e => !isPair e) ∧ c.Perm (c' ++ d) ∧
      (∀ e ∈ d, isPair e = false ∧ ∃ x ∈ (split f ds s).1, Matches x e) ∧
      ∀ x ∈ (split f ds s).1, ∃ e ∈ d, Matches x e
  | .extendPairs xs, o, c' => o = .unit ∧ InsertAll c (xs.map fun p => someBoth p.1 p.2) c'
  | .extend xs, o, c' => o = .unit ∧ InsertAll c xs c'
  | .reserveLeft _, o, c' => o = .unit ∧ c'.Perm c
  | .reserveRight _, o, c' => o = .unit ∧ c'.Perm c
  | .tryReserveLeft _ a, o, c' => o = .bool a ∧ c'.Perm c
  | .tryReserveRight _ a, o, c' => o = .bool a ∧ c'.Perm c
  | .shrinkToLeft _, o, c' => o = .unit ∧ c'.Perm c
  | .shrinkToRight _, o, c' => o = .unit ∧ c'.Perm c
  | .shrinkToFit, o, c' => o = .unit ∧ c'.Perm c
  | .clone cl cr, o, c' => o = .unit ∧ c'.Perm (c.map (mapEntry cl cr))

/-- A history on a list of entries. -/
def Steps (c : List (OptionalPair L R)) : List (Op L R) → List (Out L R) → List (OptionalPair L R) → Prop
  | [], os, c' => os = [] ∧ c'.Perm c
  | op :: ops, os, c' => ∃ o os' c₁, os = o :: os' ∧ Step c op o c₁ ∧ Steps c₁ ops os' c'

/-- The calls covered.  Excluded are those that may tear a pair apart: `unpair` if the items found belong to two
pairs whose hashes agree crosswise (C41), `drain_filter` with a closure that accepts a paired right item as if it
were alone (C54), `retain_paired` if the left items of two pairs match but the hashes of their right items differ,
`retain_unpaired` if a lone item matches an item of a pair; and a `Clone` whose result does not match the original. -/
def Sane (hb : BuildHasher L R) (c : List (OptionalPair L R)) : Op L R → Prop
  | .unpair l r => ∀ a b a' b' d, c.Perm (someBoth a b :: someBoth a' b' :: d) → (l == a) = true → (r == b') = true →
      hb.hr r = hb.hr b → hb.hl l = hb.hl a' → False
  | .drainFilter _ f _ _ => ∀ s l r, someBoth l r ∈ c → (f s (someRight r)).1 = false
  | .retainPaired _ _ _ => ∀ a b a' b' d, c.Perm (someBoth a b :: someBoth a' b' :: d) → (a == a') = true →
      hb.hr b = hb.hr b'
  | .retainUnpaired _ _ _ => ∀ x e, x ∈ c → e ∈ c → Matches x e → isPair e = false
  | .clone cl cr => (∀ x, (cl x == x) = true) ∧ (∀ x, (cr x == x) = true)
  | _ => True

/-- The calls that are certain not to panic: the `retain` family looks items up again, so it wants every item it
visits to match itself; `swap_*_or_insert` panics if the new item has a match (C49). -/
def Calm (c : List (OptionalPair L R)) : Op L R → Prop
  | .retain _ _ _ => ∀ e ∈ c, ∀ a, leftOf e = some a → (a == a) = true
  | .retainPaired _ _ _ => ∀ e ∈ c, isPair e = true → ∀ a, leftOf e = some a → (a == a) = true
  | .retainUnpaired _ _ _ => ∀ e ∈ c, isPair e = false →
      (∀ a, leftOf e = some a → (a == a) = true) ∧ ∀ b, rightOf e = some b → (b == b) = true
  | .swapLeftOrInsert old new _ => ¬ NoL c old ∨ NoL c new
  | .swapRightOrInsert old new _ => ¬ NoR c old ∨ NoR c new
  | _ => True

/-- A history of covered calls, however the choices turn out. -/
def SaneRun (hb : BuildHasher L R) (c : List (OptionalPair L R)) : List (Op L R) → Prop
  | [] => True
  | op :: ops => Sane hb c op ∧ ∀ o c', Step c op o c' → SaneRun hb c' ops

/-- A history of covered calls that are certain not to panic. -/
def CalmRun (hb : BuildHasher L R) (c : List (OptionalPair L R)) : List (Op L R) → Prop
  | [] => True
  | op :: ops => (Sane hb c op ∧ Calm c op) ∧ ∀ o c', Step c op o c' → CalmRun hb c' ops

end Verif.PartialWeak

namespace Verif.PartialMap
open PartialSpec OptionalPair
variable [RawImpl] {L R : Type} [BEq L] [BEq R]

/-- The map holds the entries `c`: the pairs are those of `c`, the lone items are those of `c`, and either side
holds every item of its side once. -/
structure Links (m : PartialMap L R) (c : List (OptionalPair L R)) : Prop where
  nonempty : neither ∉ c
  iterPaired : ∃ ps, m.iterPairedList = .ok ps ∧ ps.Perm (c.filterMap pairOf)
  iterUnpaired : m.iterUnpairedList.Perm (c.filter fun e => !isPair e)
  iterLeft : m.iterLeft.Perm (c.filterMap leftOf)
  iterRight : m.iterRight.Perm (c.filterMap rightOf)
  lenLeft : m.lenLeft = (c.filterMap leftOf).length
  lenRight : m.lenRight = (c.filterMap rightOf).length
  isEmpty : m.isEmpty = c.isEmpty

end Verif.PartialMap
