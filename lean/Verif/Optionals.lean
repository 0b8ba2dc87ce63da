/-
Model of `/repo/src/optionals.rs`.
-/
namespace Verif

/-- `OptionalPair<L, R>` — optionals.rs:22-35.  `Eq` bounds are not needed by the model, except for
`is_none`, which compares with the derived `PartialEq`. -/
inductive OptionalPair (L R : Type) where
  | neither
  | someLeft (l : L)
  | someRight (r : R)
  | someBoth (l : L) (r : R)
deriving DecidableEq, Repr

/-- `InsertOptional<L, R>` — optionals.rs:40 -/
abbrev InsertOptional (L R : Type) := OptionalPair (L × R) (L × R)

namespace OptionalPair
variable {L R A B : Type}

/-- `#[derive(PartialEq)]` — optionals.rs:21: same constructor, equal fields. -/
def beq [BEq L] [BEq R] : OptionalPair L R → OptionalPair L R → Bool
  | neither, neither => true
  | someLeft a, someLeft b => a == b
  | someRight a, someRight b => a == b
  | someBoth a b, someBoth c d => a == c && b == d
  | _, _ => false

/-- `is_none` — optionals.rs:49-51 -/
def isNone [BEq L] [BEq R] (o : OptionalPair L R) : Bool := beq o neither

/-- `is_some` — optionals.rs:56-58 -/
def isSome [BEq L] [BEq R] (o : OptionalPair L R) : Bool := !isNone o

/-- `get_left` — optionals.rs:61-66 -/
def getLeft : OptionalPair L R → Option L
  | someLeft l | someBoth l _ => some l
  | _ => none

/-- `get_right` — optionals.rs:69-74 -/
def getRight : OptionalPair L R → Option R
  | someRight r | someBoth _ r => some r
  | _ => none

/-- `map` — optionals.rs:87-100 -/
def map (f : L → A) (g : R → B) : OptionalPair L R → OptionalPair A B
  | neither => neither
  | someLeft l => someLeft (f l)
  | someRight r => someRight (g r)
  | someBoth l r => someBoth (f l) (g r)

/-- `convert` — optionals.rs:78-84; the two `From` conversions are parameters -/
def convert (fromL : L → A) (fromR : R → B) (o : OptionalPair L R) : OptionalPair A B :=
  o.map (fun l => fromL l) (fun r => fromR r)

/-- `map_left` — optionals.rs:103-114 -/
def mapLeft (f : L → A) : OptionalPair L R → OptionalPair A R
  | neither => neither
  | someRight r => someRight r
  | someLeft l => someLeft (f l)
  | someBoth l r => someBoth (f l) r

/-- `map_right` — optionals.rs:117-128 -/
def mapRight (f : R → A) : OptionalPair L R → OptionalPair L A
  | neither => neither
  | someLeft l => someLeft l
  | someRight r => someRight (f r)
  | someBoth l r => someBoth l (f r)

/-- `cloned` (optionals.rs:138-145) and `clone` (153-160); the two `Clone` implementations are parameters -/
def cloned (cl : L → A) (cr : R → B) : OptionalPair L R → OptionalPair A B
  | neither => neither
  | someLeft l => someLeft (cl l)
  | someRight r => someRight (cr r)
  | someBoth l r => someBoth (cl l) (cr r)

/-- `From<(Option<L>, Option<R>)>` — optionals.rs:191-198 -/
def ofPair : Option L × Option R → OptionalPair L R
  | (none, none) => neither
  | (some a, none) => someLeft a
  | (none, some b) => someRight b
  | (some a, some b) => someBoth a b

/-- `From<Option<(Option<L>, Option<R>)>>` — optionals.rs:206-213 -/
def ofOption : Option (Option L × Option R) → OptionalPair L R
  | none | some (none, none) => neither
  | some (some a, none) => someLeft a
  | some (none, some b) => someRight b
  | some (some a, some b) => someBoth a b

/-- `From<OptionalPair<L, R>> for (Option<L>, Option<R>)` — optionals.rs:221-228 -/
def toPair : OptionalPair L R → Option L × Option R
  | neither => (none, none)
  | someLeft a => (some a, none)
  | someRight b => (none, some b)
  | someBoth a b => (some a, some b)

/-- `From<OptionalPair<L, R>> for Option<(Option<L>, Option<R>)>` — optionals.rs:236-243 -/
def toOption : OptionalPair L R → Option (Option L × Option R)
  | neither => none
  | someLeft a => some (some a, none)
  | someRight b => some (none, some b)
  | someBoth a b => some (some a, some b)

end OptionalPair
end Verif
