import Verif.Optionals
/-
`/repo/tests/optionals_tests.rs`, run on the model.
-/
namespace Verif.Tests.Optionals
open OptionalPair

/-- the four values of lines 21-24 -/
def no : OptionalPair Nat Nat := neither
def sl : OptionalPair Nat Nat := someLeft 42
def sr : OptionalPair Nat Nat := someRight 84
def sb : OptionalPair Nat Nat := someBoth 42 84

-- lines 6-17
#guard (someLeft "hello" : OptionalPair String Nat).isSome
#guard ((someLeft "hello" : OptionalPair String String).convert id id).beq (someLeft "hello")

-- lines 25-42
#guard (no.map toString toString).beq neither
#guard (sl.map toString toString).beq (someLeft "42")
#guard (sr.map toString toString).beq (someRight "84")
#guard (sb.map toString toString).beq (someBoth "42" "84")

-- lines 43-64
#guard (no.mapLeft toString).beq neither
#guard (sl.mapLeft toString).beq (someLeft "42")
#guard (sr.mapLeft toString).beq (someRight 84)
#guard (sb.mapLeft toString).beq (someBoth "42" 84)
#guard (no.mapRight toString).beq neither
#guard (sl.mapRight toString).beq (someLeft 42)
#guard (sr.mapRight toString).beq (someRight "84")
#guard (sb.mapRight toString).beq (someBoth 42 "84")

-- lines 66-92
#guard [no, sl, sr, sb].all fun o => o.beq (ofOption o.toOption) && o.beq (ofPair o.toPair)

end Verif.Tests.Optionals
