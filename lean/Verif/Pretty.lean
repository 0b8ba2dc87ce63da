import Verif.Debug
/-
The `Debug` implementations with the format `{:#?}`.  The builders of `core::fmt` write each entry through a `PadAdapter`, which indents
every line by four spaces.  `dl` and `dr` print the items of the two sides with `{:#?}`.
-/
namespace Verif

namespace Fmt

/-- `PadAdapter::write_str` (core::fmt::builders): `nl` is its `on_newline` -/
def padFrom (nl : Bool) : List Char → List Char
  | [] => []
  | c :: cs => (if nl then [' ', ' ', ' ', ' '] else []) ++ c :: padFrom (c == '\n') cs

/-- an entry, or field, of a builder with the `#` flag: it and `",\n"` are written through a new `PadAdapter` -/
def padded (s : String) : String := String.ofList (padFrom true (s ++ ",\n").toList)

/-- `debug_set().entries(..).finish()` with `#` -/
def prettySet (xs : List String) : String :=
  if xs.isEmpty then "{}" else "{\n" ++ String.join (xs.map padded) ++ "}"

/-- `debug_list().entries(..).finish()` with `#` -/
def prettyList (xs : List String) : String :=
  if xs.isEmpty then "[]" else "[\n" ++ String.join (xs.map padded) ++ "]"

/-- `Debug for (A, B)` with `#` -/
def prettyPair (a b : String) : String := "(\n" ++ padded a ++ padded b ++ ")"

/-- `Debug for Option<A>` with `#` -/
def prettyOption : Option String → String
  | none => "None"
  | some a => "Some(\n" ++ padded a ++ ")"

end Fmt
open Fmt

variable [RawImpl] {L R : Type} [BEq L] [BEq R]

namespace CycleMap

/-- `Debug for CycleMap` — cycle_map.rs:1125-1134 -/
def pretty (m : CycleMap L R) (dl : L → String) (dr : R → String) : Res String := do
  return prettySet ((← m.iterList).map fun p => prettyPair (dl p.1) (dr p.2))

/-- `Debug for Iter` — cycle_map.rs:1199-1208 -/
def Iter.pretty (it : Iter L) (m : CycleMap L R) (dl : L → String) (dr : R → String) : Res String := do
  return prettyList ((← Iter.collect m it.clone.todo).map fun p => prettyPair (dl p.1) (dr p.2))

end CycleMap

namespace PartialMap

/-- `Debug for PartialCycleMap` — partial_cycle_map.rs:1729-1738.  The entries are `OptionalPair`s, whose `fmt` (optionals.rs:163-185) writes its
items with `{item:?}`, so the `#` does not reach them: `dl` and `dr` print with `{:?}` here. -/
def pretty (m : PartialMap L R) (dl : L → String) (dr : R → String) : String :=
  prettySet (m.iterList.map (·.debug dl dr))

/-- `Debug for Iter` — partial_cycle_map.rs:2003-2012 -/
def Iter.pretty (it : Iter L) (m : PartialMap L R) (dl : L → String) (dr : R → String) : String :=
  prettyList ((Iter.collect m it.clone.todo).map (·.debug dl dr))

end PartialMap

namespace GroupMap

/-- how an item of `Iter` is printed: a pair of an `Option` and a right item -/
def prettyEntry (dl : L → String) (dr : R → String) (e : Option L × R) : String :=
  prettyPair (prettyOption (e.1.map dl)) (dr e.2)

/-- `Debug for GroupMap` — group_map.rs:1050-1059 -/
def pretty (m : GroupMap L R) (dl : L → String) (dr : R → String) : Res String := do
  return prettySet ((← m.iterList).map (prettyEntry dl dr))

end GroupMap
end Verif
