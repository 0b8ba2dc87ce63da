import Verif.Instances
/-
The crate's own tests (`/repo/tests`) run on the model.  They are tests, not proofs: evaluated with `#guard`, once
for each of three table implementations and two hash functions.  They check that the model behaves as the crate's authors
observed the code to behave, including where that is not what the documentation says.
-/
namespace Verif.Tests

/-- an assertion that failed or a call that panicked, with the line in the test file -/
abbrev T := Except String

/-- `assert!(b)` at a line -/
def check (line : Nat) (b : Bool) : T Unit := if b then pure () else throw s!"assertion failed at line {line}"

/-- a call that must not panic -/
def call {α : Type} (line : Nat) : Res α → T α
  | .ok a => pure a
  | .error _ => throw s!"panic at line {line}"

/-- `TestingStruct`, `/repo/tests/cycle_map_tests.rs:8-12` -/
structure TestingStruct where
  value : Nat
  data : String
deriving DecidableEq, Repr

/-- `TestingStruct::from_value`, `/repo/tests/cycle_map_tests.rs:350-357` -/
def TestingStruct.fromValue (value : Nat) : TestingStruct := { value, data := toString value }

/-- hashers for types whose `==` is equality -/
def lawful {L R : Type} [BEq L] [BEq R] [LawfulBEq L] [LawfulBEq R] (hl : L → UInt64) (hr : R → UInt64) :
    BuildHasher L R where
  hl := hl
  hr := hr
  hl_congr _ _ h := by rw [eq_of_beq h]
  hr_congr _ _ h := by rw [eq_of_beq h]

/-- a map built with a hash function that separates the items (`true`) or with one under which all collide -/
class HashOf (α : Type) where
  hash : Bool → α → UInt64

instance : HashOf String := ⟨fun b s => if b then s.hash else 0⟩
instance : HashOf Nat := ⟨fun b n => if b then UInt64.ofNat n else 7⟩
instance : HashOf TestingStruct := ⟨fun b s => if b then UInt64.ofNat s.value * 31 else 7⟩

/-- the hasher of the maps under test -/
def hasherOf (L R : Type) [BEq L] [BEq R] [LawfulBEq L] [LawfulBEq R] [HashOf L] [HashOf R] (b : Bool) :
    BuildHasher L R := lawful (HashOf.hash b) (HashOf.hash b)

/-- two lists hold the same items (`HashSet` equality of collected lists without repetitions) -/
def sameSet {α : Type} [BEq α] (xs ys : List α) : Bool :=
  xs.all ys.contains && ys.all xs.contains

end Verif.Tests
