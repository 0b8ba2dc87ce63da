import Verif.Pretty
import Verif.Props.Debug
/-!
Property C126: what `{:#?}` prints.  `nest s` is the text `s` moved four columns to the right, except for its first line.
-/
set_option linter.unusedSectionVars false
set_option linter.unusedSimpArgs false

namespace Verif

/-- every line but the first begins with four more spaces -/
def nest (s : String) : String := String.ofList (s.toList.flatMap fun c => if c = '\n' then ['\n', ' ', ' ', ' ', ' '] else [c])

/-- text between `open` and `close`, each entry on lines of its own, indented, with a comma; nothing in between if there are no entries -/
def block (opening closing : String) (entries : List String) : String :=
  if entries = [] then opening ++ closing
  else opening ++ "\n" ++ String.join (entries.map fun s => "    " ++ nest s ++ ",\n") ++ closing

example : nest "Point {\n    x: 1,\n}" = "Point {\n        x: 1,\n    }" := by decide

example : block "{" "}" ["1", "[\n    2,\n]"] = "{\n    1,\n    [\n        2,\n    ],\n}" := by decide

namespace Fmt

theorem padFrom_eq (nl : Bool) (cs : List Char) : padFrom nl (cs ++ [',', '\n']) =
    (if nl then [' ', ' ', ' ', ' '] else []) ++ (cs.flatMap fun c => if c = '\n' then ['\n', ' ', ' ', ' ', ' '] else [c]) ++ [',', '\n'] := by
  induction cs generalizing nl with
  | nil => cases nl <;> rfl
  | cons c cs ih =>
    rw [List.cons_append, padFrom, ih, List.flatMap_cons]
    by_cases hc : c = '\n'
    · subst hc; cases nl <;> simp
    · have : (c == '\n') = false := by simp [hc]
      cases nl <;> simp [hc, this]

theorem padded_eq (s : String) : padded s = "    " ++ nest s ++ ",\n" := by
  rw [← String.toList_inj]
  have := padFrom_eq true s.toList
  simpa [padded, nest] using this

theorem prettySet_eq (xs : List String) : prettySet xs = block "{" "}" xs := by
  cases xs with
  | nil => rfl
  | cons x xs => simp [prettySet, block, ← padded_eq, ← String.append_assoc]

theorem prettyList_eq (xs : List String) : prettyList xs = block "[" "]" xs := by
  cases xs with
  | nil => rfl
  | cons x xs => simp [prettyList, block, ← padded_eq]

theorem prettyPair_eq (a b : String) : prettyPair a b = block "(" ")" [a, b] := by
  simp [prettyPair, block, padded_eq, String.join, String.append_assoc, ← String.toList_inj]

theorem prettyOption_eq (a : Option String) : prettyOption a = match a with
    | none => "None"
    | some a => block "Some(" ")" [a] := by
  cases a with
  | none => rfl
  | some a => simp [prettyOption, block, padded_eq, String.join, String.append_assoc, ← String.toList_inj]

end Fmt
end Verif

namespace Verif.CycleMap
open CycleSpec OptionalPair Demo Fmt

variable [RawImpl] [LawfulRaw] {L R : Type} [BEq L] [BEq R] [EquivBEq L] [EquivBEq R]
variable {m : CycleMap L R} {c : List (L × R)}

/-- C126, `CycleMap`: every pair once, in the order of `{:?}`, each item on lines of its own; `iter()` after `k` steps prints the pairs still to come. -/
theorem C126_pretty (h : Reachable m) (hc : Shows m c) (dl : L → String) (dr : R → String) :
    ∃ ps : List (L × R), ps.Perm c ∧
      m.debug dl dr = .ok ("{" ++ ", ".intercalate (ps.map fun p => "(" ++ dl p.1 ++ ", " ++ dr p.2 ++ ")") ++ "}") ∧
      m.pretty dl dr = .ok (block "{" "}" (ps.map fun p => block "(" ")" [dl p.1, dr p.2])) ∧
      ∀ k, ∃ it, Iter.take m k m.iter = .ok (ps.take k, it) ∧
        it.pretty m dl dr = .ok (block "[" "]" ((ps.drop k).map fun p => block "(" ")" [dl p.1, dr p.2])) := by
  obtain ⟨qs, hq, hr, he⟩ := (h.repr_of_shows hc).ordered
  refine ⟨qs.map Rec.pair, hq, ?_, ?_, fun k => ?_⟩
  · rw [debug, iterList, iter_todo he, hr.collect (fun _ h => h)]; rfl
  · rw [pretty, iterList, iter_todo he, hr.collect (fun _ h => h)]
    exact congrArg Except.ok (by simp only [prettyPair_eq, prettySet_eq])
  · have hi : m.iter = ⟨elemsL m.hb qs⟩ := by rw [← iter_todo he]
    refine ⟨⟨elemsL m.hb (qs.drop k)⟩, ?_, ?_⟩
    · rw [hi, hr.take (fun _ h => h), List.map_take]
    · rw [Iter.pretty, Iter.clone, hr.collect (fun _ h => List.mem_of_mem_drop h), List.map_drop]
      exact congrArg Except.ok (by simp only [prettyPair_eq, prettyList_eq])

/-- a map with one pair, whose right item prints on three lines -/
example : ∃ m : CycleMap Nat Nat, fromIter constHash [(7, 70)] = .ok m ∧
    m.pretty toString (fun n => "[\n    " ++ toString n ++ ",\n]") = .ok "{
    (
        7,
        [
            70,
        ],
    ),
}" := by
  obtain ⟨m, e, h, _⟩ := extend_refines (withHasher_repr constHash) [(7, 70)]
  have hr : Reachable m := .step (op := .extend [(7, 70)]) (o := .unit) (.new constHash) (by simp) (by simp) (by
    simp only [exec, e]; rfl)
  obtain ⟨ps, hp, -, hd, _⟩ := C126_pretty hr h.shows toString fun n => "[\n    " ++ toString n ++ ",\n]"
  obtain rfl := hp.eq_singleton
  exact ⟨m, e, hd.trans (congrArg Except.ok (by decide +kernel))⟩

end Verif.CycleMap

namespace Verif.PartialMap
open PartialSpec OptionalPair Demo Fmt

variable [RawImpl] [LawfulRaw] {L R : Type} [BEq L] [BEq R] [EquivBEq L] [EquivBEq R]
variable {m : PartialMap L R} {c : List (OptionalPair L R)}

/-- C126, `PartialCycleMap`: every entry that has a left item (see C101), one after the other; the items are printed as with `{:?}`. -/
theorem C126_pretty (h : Reachable m) (hc : Shows m c) (dl : L → String) (dr : R → String) :
    ∃ d : List (OptionalPair L R), d.Perm (c.filter fun e => (leftOf e).isSome) ∧
      m.debug dl dr = "{" ++ ", ".intercalate (d.map fun e => e.debug dl dr) ++ "}" ∧
      m.pretty dl dr = block "{" "}" (d.map fun e => e.debug dl dr) ∧
      ∀ k, ∃ it, Iter.take m k m.iter = (d.take k, it) ∧
        it.pretty m dl dr = block "[" "]" ((d.drop k).map fun e => e.debug dl dr) := by
  obtain ⟨qs, us, hp, hr, he, hs, hn⟩ := (h.repr_of_shows hc).ordered
  have hmem : ∀ q ∈ qs, q ∈ qs ++ us := fun q hq => List.mem_append_left _ hq
  refine ⟨qs.map Rec.e, ?_, ?_, ?_, fun k => ?_⟩
  · have := hp.filter fun e => (leftOf e).isSome
    rwa [filter_left hs hn] at this
  · rw [debug, iterList, iter_todo he, hr.collect hmem hs]; rfl
  · rw [pretty, iterList, iter_todo he, hr.collect hmem hs, prettySet_eq]
  · have hi : m.iter = ⟨elemsL m.hb qs⟩ := by rw [← iter_todo he]
    have hs' : ∀ q ∈ qs.drop k, (leftOf q.e).isSome = true := fun q hq => hs q (List.mem_of_mem_drop hq)
    rw [hi, hr.iterTake k hmem hs]
    refine ⟨_, rfl, ?_⟩
    rw [Iter.pretty, Iter.clone, hr.collect (fun q hq => hmem q (List.mem_of_mem_drop hq)) hs', List.map_drop, prettyList_eq]

/-- a map with one pair -/
example : ∃ m : PartialMap Nat Nat, fromIter constHash [someBoth 1 10] = .ok m ∧ m.pretty toString toString = "{
    SomeBoth( 1, 10 ),
}" := by
  obtain ⟨m, e, h, _⟩ := extend_refines (withHasher_repr constHash) [someBoth 1 10]
  have hr : Reachable m := .step (op := .extend [someBoth 1 10]) (o := .unit) (.new constHash) (by simp) (by simp) (by simp) (by
    simp only [exec, e]; rfl)
  have hs : Shows m [someBoth 1 10] := h.shows
  obtain ⟨d, hp, -, hd, _⟩ := C126_pretty hr hs toString toString
  obtain rfl : d = [someBoth 1 10] := List.Perm.eq_singleton hp
  exact ⟨m, e, hd.trans (by decide)⟩

end Verif.PartialMap

namespace Verif.GroupMap
open GroupSpec Demo Fmt

variable [RawImpl] [LawfulRaw] {L R : Type} [BEq L] [BEq R] [EquivBEq L] [EquivBEq R]
variable {m : GroupMap L R} {c : Contents L R}

/-- an optional item as text -/
def optLines (d : L → String) : Option L → String
  | none => "None"
  | some l => block "Some(" ")" [d l]

theorem prettyEntry_eq (dl : L → String) (dr : R → String) : prettyEntry dl dr = fun e : Option L × R =>
    block "(" ")" [optLines dl e.1, dr e.2] := by
  funext ⟨l, r⟩
  cases l <;> simp only [prettyEntry, prettyPair_eq, prettyOption_eq, Option.map, optLines]

/-- C126, `GroupMap`: every pair and every lone right item once, in the order of `{:?}`. -/
theorem C126_pretty (h : Reachable m) (hc : Shows m c) (dl : L → String) (dr : R → String) :
    ∃ d : List (Option L × R), d.Perm (c.pairs.map (fun p => (some p.1, p.2)) ++
        (c.rights.filter fun r => !c.pairs.any (r == ·.2)).map fun r => (none, r)) ∧
      m.debug dl dr = .ok ("{" ++ ", ".intercalate (d.map fun e => "(" ++ optText dl e.1 ++ ", " ++ dr e.2 ++ ")") ++ "}") ∧
      m.pretty dl dr = .ok (block "{" "}" (d.map fun e => block "(" ")" [optLines dl e.1, dr e.2])) := by
  obtain ⟨gs, hp, -, -, hd, -⟩ := C73_actual h hc
  refine ⟨gs.flatten, hp, ?_, ?_⟩
  · rw [debug, hd, debugEntry_eq]; rfl
  · rw [pretty, hd, prettyEntry_eq]
    exact congrArg Except.ok (prettySet_eq _)

/-- a map with one pair -/
example : ∃ m : GroupMap Nat Nat, fromIterOpt constHash [(some 1, 10)] = .ok m ∧ m.pretty toString toString = .ok "{
    (
        Some(
            1,
        ),
        10,
    ),
}" := by
  have hn : NewPairs (GroupSpec.empty : Contents Nat Nat) [(some 1, 10)] := by
    simp [NewPairs, hasPair, GroupSpec.empty, GroupSpec.insert, findR, findL, eraseL]
  obtain ⟨m, e, hr, _⟩ := extendOpt_refines (withHasher_repr constHash) _ hn
  have hs : Shows m ⟨[10], [(1, 10)]⟩ := hr.shows
  obtain ⟨d, hp, -, hd⟩ := C126_pretty ((Reachable.new constHash).extendOpt (withHasher_repr constHash) _ hn e) hs toString toString
  obtain rfl : d = [(some 1, 10)] := List.Perm.eq_singleton (by simpa using hp)
  exact ⟨m, e, hd.trans (congrArg Except.ok (by decide +kernel))⟩

end Verif.GroupMap
