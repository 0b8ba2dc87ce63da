import Verif.Debug
import Verif.Props.CycleIter
import Verif.Props.PartialIter
import Verif.Props.GroupIter
/-! Properties C100–C103: what the `Debug` implementations print.  `dl` and `dr` print the items of the two sides. -/
set_option linter.unusedSectionVars false
set_option linter.unusedSimpArgs false

namespace Verif.CycleMap
open CycleSpec OptionalPair Demo

variable [RawImpl] [LawfulRaw] {L R : Type} [BEq L] [BEq R] [EquivBEq L] [EquivBEq R]
variable {m : CycleMap L R} {c : List (L × R)}

/-- C100: there is one order `ps` of the pairs such that `{:?}` of the map is `{(l1, r1), (l2, r2), ..}`, every pair
once, and `{:?}` of `iter()` after `k` steps is the list of the pairs still to come (which it still yields afterwards).
The iterators over one side print the items they still yield. -/
theorem C100_debug (h : Reachable m) (hc : Shows m c) (dl : L → String) (dr : R → String) :
    (∃ ps : List (L × R), ps.Perm c ∧
      m.debug dl dr = .ok ("{" ++ ", ".intercalate (ps.map fun p => "(" ++ dl p.1 ++ ", " ++ dr p.2 ++ ")") ++ "}") ∧
      ∀ k, ∃ it, Iter.take m k m.iter = .ok (ps.take k, it) ∧
        it.debug m dl dr =
          .ok ("[" ++ ", ".intercalate ((ps.drop k).map fun p => "(" ++ dl p.1 ++ ", " ++ dr p.2 ++ ")") ++ "]") ∧
        ∀ j, (∃ it', Iter.take m j it = .ok ((ps.drop k).take j, it')) ∧
          ∃ it', Iter.take m j it.clone = .ok ((ps.drop k).take j, it')) ∧
    (∀ k, m.debugLeftIter k dl = "[" ++ ", ".intercalate ((m.iterLeft.drop k).map dl) ++ "]") ∧
    (∀ k, m.debugRightIter k dr = "[" ++ ", ".intercalate ((m.iterRight.drop k).map dr) ++ "]") := by
  obtain ⟨qs, hq, hr, he⟩ := (h.repr_of_shows hc).ordered
  refine ⟨⟨qs.map Rec.pair, hq, ?_, fun k => ?_⟩, fun _ => rfl, fun _ => rfl⟩
  · rw [debug, iterList, iter_todo he, hr.collect (fun _ h => h)]; rfl
  · have hi : m.iter = ⟨elemsL m.hb qs⟩ := by rw [← iter_todo he]
    refine ⟨⟨elemsL m.hb (qs.drop k)⟩, ?_, ?_, fun j => ?_⟩
    · rw [hi, hr.take (fun _ h => h), List.map_take]
    · rw [Iter.debug, Iter.clone, hr.collect (fun _ h => List.mem_of_mem_drop h), List.map_drop]; rfl
    · have : Iter.take m j ⟨elemsL m.hb (qs.drop k)⟩ = .ok (((qs.map Rec.pair).drop k).take j, ⟨elemsL m.hb ((qs.drop k).drop j)⟩) := by
        rw [hr.take (fun _ h => List.mem_of_mem_drop h), List.map_take, List.map_drop]
      exact ⟨⟨_, this⟩, ⟨_, this⟩⟩

/-- a map with one pair prints as `{(7, 70)}` -/
example : ∃ m : CycleMap Nat Nat, fromIter constHash [(7, 70)] = .ok m ∧ m.debug toString toString = .ok "{(7, 70)}" := by
  obtain ⟨m, e, h, _⟩ := extend_refines (withHasher_repr constHash) [(7, 70)]
  have hr : Reachable m := .step (op := .extend [(7, 70)]) (o := .unit) (.new constHash) (by simp) (by simp) (by
    simp only [exec, e]; rfl)
  obtain ⟨⟨ps, hp, hd, _⟩, _⟩ := C100_debug hr h.shows toString toString
  obtain rfl := hp.eq_singleton
  exact ⟨m, e, hd.trans (congrArg Except.ok (by decide))⟩

end Verif.CycleMap

namespace Verif.OptionalPair
variable {L R : Type}

/-- C103: the four kinds of `OptionalPair` never print alike, whatever the items print; with one item, the output
determines what the item prints. -/
theorem C103_debug (dl : L → String) (dr : R → String) :
    (neither : OptionalPair L R).debug dl dr = "None" ∧
    (∀ l, (someLeft l : OptionalPair L R).debug dl dr = "SomeLeft( " ++ dl l ++ " )") ∧
    (∀ r, (someRight r : OptionalPair L R).debug dl dr = "SomeRight( " ++ dr r ++ " )") ∧
    (∀ l r, (someBoth l r : OptionalPair L R).debug dl dr = "SomeBoth( " ++ dl l ++ ", " ++ dr r ++ " )") ∧
    (∀ o o' : OptionalPair L R, o.debug dl dr = o'.debug dl dr →
      o.getLeft.isSome = o'.getLeft.isSome ∧ o.getRight.isSome = o'.getRight.isSome) ∧
    (∀ l l', (someLeft l : OptionalPair L R).debug dl dr = (someLeft l').debug dl dr → dl l = dl l') ∧
    (∀ r r', (someRight r : OptionalPair L R).debug dl dr = (someRight r').debug dl dr → dr r = dr r') := by
  refine ⟨rfl, fun _ => rfl, fun _ => rfl, fun _ _ => rfl, fun o o' h => ?_, fun l l' h => ?_, fun r r' h => ?_⟩
  · have h := congrArg String.toList h
    cases o <;> cases o' <;> simp [debug, getLeft, getRight] at h ⊢
  · have h := congrArg String.toList h
    simpa [debug, String.toList_inj] using h
  · have h := congrArg String.toList h
    simpa [debug, String.toList_inj] using h

example : (someBoth 1 "x" : OptionalPair Nat String).debug toString (fun s => "\"" ++ s ++ "\"") = "SomeBoth( 1, \"x\" )" := by
  decide

end Verif.OptionalPair

namespace Verif.PartialMap
open PartialSpec OptionalPair Demo

variable [RawImpl] [LawfulRaw] {L R : Type} [BEq L] [BEq R] [EquivBEq L] [EquivBEq R]
variable {m : PartialMap L R} {c : List (OptionalPair L R)}

/-- C101 in full: `{:?}` of a map shows every entry, and `{:?}` of an iterator, at every position, the items it still
yields.  The part about the map is false, see `C101_false`. -/
def C101_full : Prop :=
  ∀ [RawImpl] [LawfulRaw] (L R : Type) [BEq L] [BEq R] [EquivBEq L] [EquivBEq R] (m : PartialMap L R)
    (c : List (OptionalPair L R)) (dl : L → String) (dr : R → String), Reachable m → Shows m c →
    (∃ d : List (OptionalPair L R), d.Perm c ∧
      m.debug dl dr = "{" ++ ", ".intercalate (d.map fun e => e.debug dl dr) ++ "}") ∧
    (∃ es : List (OptionalPair L R), ∀ k, ∃ it, Iter.take m k m.iter = (es.take k, it) ∧
      it.debug m dl dr = "[" ++ ", ".intercalate ((es.drop k).map fun e => e.debug dl dr) ++ "]") ∧
    (∃ ps : List (L × R), ps.Perm (c.filterMap pairOf) ∧
      ∀ k, ∃ it, PairedIter.take m k m.iterPaired = .ok (ps.take k, it) ∧
        it.debug m dl dr =
          .ok ("[" ++ ", ".intercalate ((ps.drop k).map fun p => "(" ++ dl p.1 ++ ", " ++ dr p.2 ++ ")") ++ "]")) ∧
    (∃ es : List (OptionalPair L R), es.Perm (c.filter fun e => !isPair e) ∧
      ∀ k, ∃ it, UnpairedIter.take k m.iterUnpaired = (es.take k, it) ∧
        it.debug dl dr = "[" ++ ", ".intercalate ((es.drop k).map fun e => e.debug dl dr) ++ "]") ∧
    (∀ k, m.debugLeftIter k dl = "[" ++ ", ".intercalate ((m.iterLeft.drop k).map dl) ++ "]") ∧
    (∀ k, m.debugRightIter k dr = "[" ++ ", ".intercalate ((m.iterRight.drop k).map dr) ++ "]")

/-- What is printed instead: the pairs and the lone left items, each once.  The iterators print, at every position,
exactly the items they still yield: `iter()` those with a left item, `iter_paired()` the pairs, `iter_unpaired()` the
lone items of both sides. -/
theorem C101_actual (h : Reachable m) (hc : Shows m c) (dl : L → String) (dr : R → String) :
    (∃ d : List (OptionalPair L R), d.Perm (c.filter fun e => (leftOf e).isSome) ∧
      m.debug dl dr = "{" ++ ", ".intercalate (d.map fun e => e.debug dl dr) ++ "}" ∧
      ∀ k, ∃ it, Iter.take m k m.iter = (d.take k, it) ∧
        it.debug m dl dr = "[" ++ ", ".intercalate ((d.drop k).map fun e => e.debug dl dr) ++ "]") ∧
    (∃ ps : List (L × R), ps.Perm (c.filterMap pairOf) ∧
      ∀ k, ∃ it, PairedIter.take m k m.iterPaired = .ok (ps.take k, it) ∧
        it.debug m dl dr =
          .ok ("[" ++ ", ".intercalate ((ps.drop k).map fun p => "(" ++ dl p.1 ++ ", " ++ dr p.2 ++ ")") ++ "]")) ∧
    (∃ es : List (OptionalPair L R), es.Perm (c.filter fun e => !isPair e) ∧
      ∀ k, ∃ it, UnpairedIter.take k m.iterUnpaired = (es.take k, it) ∧
        it.debug dl dr = "[" ++ ", ".intercalate ((es.drop k).map fun e => e.debug dl dr) ++ "]") ∧
    (∀ k, m.debugLeftIter k dl = "[" ++ ", ".intercalate ((m.iterLeft.drop k).map dl) ++ "]") ∧
    (∀ k, m.debugRightIter k dr = "[" ++ ", ".intercalate ((m.iterRight.drop k).map dr) ++ "]") := by
  have h := h.repr_of_shows hc
  obtain ⟨qs, us, hp, hr, he, hs, hn⟩ := h.ordered
  have hmem : ∀ q ∈ qs, q ∈ qs ++ us := fun q hq => List.mem_append_left _ hq
  refine ⟨?_, ?_, ?_, fun _ => rfl, fun _ => rfl⟩
  · refine ⟨qs.map Rec.e, ?_, ?_, fun k => ?_⟩
    · have := hp.filter fun e => (leftOf e).isSome
      rwa [filter_left hs hn] at this
    · rw [debug, iterList, iter_todo he, hr.collect hmem hs]; rfl
    · have hi : m.iter = ⟨elemsL m.hb qs⟩ := by rw [← iter_todo he]
      have hs' : ∀ q ∈ qs.drop k, (leftOf q.e).isSome = true := fun q hq => hs q (List.mem_of_mem_drop hq)
      rw [hi, hr.iterTake k hmem hs]
      refine ⟨_, rfl, ?_⟩
      rw [Iter.debug, Iter.clone, hr.collect (fun q hq => hmem q (List.mem_of_mem_drop hq)) hs', List.map_drop]; rfl
  · have hi : m.iterPaired = ⟨elemsL m.hb qs⟩ := by simp [iterPaired, RawTable.toList, he, elemsL]
    refine ⟨pairsOf qs, pairsOf_perm hp hn, fun k => ?_⟩
    rw [hi]
    obtain ⟨qs2, e, hd, hm⟩ := hr.pairedTake_eq k (qs := qs) hmem hs
    refine ⟨_, e, ?_⟩
    have hs2 : ∀ q ∈ qs2, (leftOf q.e).isSome = true := fun q hq => hs q (hm q hq)
    obtain ⟨qs3, e', _⟩ := hr.pairedTake_eq ((elemsL m.hb qs2).length + 1) (qs := qs2) (fun q hq => hmem q (hm q hq)) hs2
    rw [PairedIter.debug, PairedIter.clone, e', ← hd, List.take_of_length_le]
    · rfl
    · rw [elemsL_length hs2, pairsOf]
      exact Nat.le_succ_of_le (List.length_filterMap_le _ _)
  · refine ⟨_, iterUnpairedList_refines h, fun k => ?_⟩
    rw [iterUnpairedList_eq]
    refine ⟨_, Prod.ext (UnpairedIter.take_eq k _).1 rfl, ?_⟩
    rw [UnpairedIter.debug, UnpairedIter.clone]
    rw [(UnpairedIter.take_eq _ _).1, (UnpairedIter.take_eq k _).2, List.take_of_length_le]
    · rfl
    · have := UnpairedIter.future_length (UnpairedIter.take k m.iterUnpaired).2
      rw [(UnpairedIter.take_eq k _).2] at this
      exact Nat.le_succ_of_le this

/-- C101 holds of maps without lone right items.  Missing: lone right items, which are not printed. -/
theorem C101_partial (h : Reachable m) (hc : Shows m c) (hn : ∀ r, someRight r ∉ c) (dl : L → String) (dr : R → String) :
    ∃ d : List (OptionalPair L R), d.Perm c ∧
      m.debug dl dr = "{" ++ ", ".intercalate (d.map fun e => e.debug dl dr) ++ "}" := by
  obtain ⟨⟨d, hp, e, _⟩, _⟩ := C101_actual h hc dl dr
  refine ⟨d, ?_, e⟩
  rwa [List.filter_eq_self.2] at hp
  intro e he
  cases e with
  | neither => exact absurd he hc.oneToOne.2
  | someRight r => exact absurd he (hn r)
  | someLeft _ => rfl
  | someBoth _ _ => rfl

theorem lone_right (r : Nat) : ∃ m : PartialMap Nat Nat, fromIter constHash [someRight r] = .ok m ∧ Reachable m ∧ Shows m [someRight r] := by
  obtain ⟨m, e, h, _⟩ := extend_refines (withHasher_repr constHash) [someRight r]
  exact ⟨m, e, .step (op := .extend [someRight r]) (o := .unit) (.new constHash) (by simp) (by simp) (by simp) (by
    simp only [exec, e]; rfl), h.shows⟩

/-- a map with one lone right item prints as if it were empty; its `iter_unpaired()` does not -/
example : ∃ m : PartialMap Nat Nat, fromIter constHash [someRight 7] = .ok m ∧ m.debug toString toString = "{}" ∧
    m.iterUnpaired.debug toString toString = "[SomeRight( 7 )]" := by
  obtain ⟨m, e, hr, hs⟩ := lone_right 7
  obtain ⟨⟨d, hp, hd, _⟩, _, ⟨es, hp2, h2⟩, _⟩ := C101_actual hr hs toString toString
  obtain rfl : d = [] := by simpa [leftOf] using hp
  obtain rfl : es = [someRight 7] := List.Perm.eq_singleton hp2
  obtain ⟨it, e0, h3⟩ := h2 0
  obtain rfl : m.iterUnpaired = it := (Prod.ext_iff.1 e0).2
  exact ⟨m, e, hd.trans (by decide), h3.trans (by decide)⟩

/-- `C101_partial` applied: a pair and nothing else -/
example : ∃ m : PartialMap Nat Nat, fromIter constHash [someBoth 1 10] = .ok m ∧ m.debug toString toString = "{SomeBoth( 1, 10 )}" := by
  obtain ⟨m, e, h, _⟩ := extend_refines (withHasher_repr constHash) [someBoth 1 10]
  have hr : Reachable m := .step (op := .extend [someBoth 1 10]) (o := .unit) (.new constHash) (by simp) (by simp) (by simp) (by
    simp only [exec, e]; rfl)
  have hs : Shows m [someBoth 1 10] := h.shows
  obtain ⟨d, hp, hd⟩ := C101_partial hr hs (by simp) toString toString
  obtain rfl := hp.eq_singleton
  exact ⟨m, e, hd.trans (by decide)⟩

omit [RawImpl] [LawfulRaw] in
/-- the witness: a map with one lone right item prints as `{}` -/
theorem C101_false : ¬ C101_full := by
  intro h
  letI := messyRaw; haveI := messyRaw_lawful
  obtain ⟨m, -, hr, hs⟩ := lone_right 7
  obtain ⟨⟨d, hp, hd⟩, -⟩ := h Nat Nat m _ toString toString hr hs
  obtain rfl := hp.eq_singleton
  obtain ⟨⟨d, hp, hd', _⟩, _⟩ := C101_actual hr hs toString toString
  obtain rfl : d = [] := by simpa [leftOf] using hp
  rw [hd'] at hd
  revert hd; decide

end Verif.PartialMap

namespace Verif.GroupMap
open GroupSpec Demo

variable [RawImpl] [LawfulRaw] {L R : Type} [BEq L] [BEq R] [EquivBEq L] [EquivBEq R]
variable {m : GroupMap L R} {c : Contents L R}

/-- an optional item as text -/
def optText (d : L → String) : Option L → String
  | none => "None"
  | some l => "Some(" ++ d l ++ ")"

/-- C102 in full: `{:?}` of a map shows every pair and every lone right item once, and `{:?}` of an iterator the
items it still yields.  The part about `iter()` is false, see `C102_false`. -/
def C102_full : Prop :=
  ∀ [RawImpl] [LawfulRaw] (L R : Type) [BEq L] [BEq R] [EquivBEq L] [EquivBEq R] (m : GroupMap L R)
    (c : Contents L R) (dl : L → String) (dr : R → String), Reachable m → Shows m c →
    (∃ d : List (Option L × R), d.Perm (c.pairs.map (fun p => (some p.1, p.2)) ++
        (c.rights.filter fun r => !c.pairs.any (r == ·.2)).map fun r => (none, r)) ∧ m.iterList = .ok d ∧
      m.debug dl dr = .ok ("{" ++ ", ".intercalate (d.map fun e => "(" ++ optText dl e.1 ++
        ", " ++ dr e.2 ++ ")") ++ "}") ∧
      ∀ k, ∃ it, Iter.take m k m.iter = .ok (d.take k, it) ∧
        it.debug m dl dr = .ok ("[" ++ ", ".intercalate ((d.drop k).map fun e =>
          "(" ++ optText dl e.1 ++ ", " ++ dr e.2 ++ ")") ++ "]")) ∧
    (∃ d : List (L × R), d.Perm c.pairs ∧ ∀ n, ∃ it, PairedIter.take m n m.iterPaired = .ok (d.take n, it) ∧
      it.debug m dl dr = .ok ("[" ++ ", ".intercalate ((d.drop n).map fun p => "(" ++ dl p.1 ++ ", " ++ dr p.2 ++ ")") ++ "]")) ∧
    (∃ d : List R, d.Perm (c.rights.filter fun r => !c.pairs.any (r == ·.2)) ∧
      ∀ n, ∃ it, UnpairedIter.take n m.iterUnpaired = (d.take n, it) ∧
        it.debug dr = "[" ++ ", ".intercalate ((d.drop n).map dr) ++ "]") ∧
    (∀ r it₀, m.getLeftIter r = some it₀ → ∃ d : List L, d.Perm ((c.pairs.filter (r == ·.2)).map (·.1)) ∧
      ∀ n, ∃ it, PairIter.take m n it₀ = .ok (d.take n, it) ∧
        it.debug m dl = .ok ("[" ++ ", ".intercalate ((d.drop n).map dl) ++ "]")) ∧
    (∀ k, m.debugLeftIter k dl = "[" ++ ", ".intercalate ((m.iterLeft.drop k).map dl) ++ "]") ∧
    (∀ k, m.debugRightIter k dr = "[" ++ ", ".intercalate ((m.iterRight.drop k).map dr) ++ "]")

theorem debugEntry_eq (dl : L → String) (dr : R → String) : debugEntry dl dr = fun e : Option L × R =>
    "(" ++ optText dl e.1 ++ ", " ++ dr e.2 ++ ")" := by
  funext ⟨l, r⟩
  cases l <;> rfl

/-- What is printed: the map as it should be; `iter()` the right items it has not begun yet (`gs` are the groups, one
per right item), so in the middle of a group the rest of the group is missing. -/
theorem C102_actual (h : Reachable m) (hc : Shows m c) (dl : L → String) (dr : R → String) :
    ∃ gs : List (List (Option L × R)), gs.flatten.Perm (c.pairs.map (fun p => (some p.1, p.2)) ++
        (c.rights.filter fun r => !c.pairs.any (r == ·.2)).map fun r => (none, r)) ∧
      gs.length = c.rights.length ∧ (∀ g ∈ gs, g ≠ [] ∧ ∃ r, ∀ e ∈ g, e.2 = r) ∧ m.iterList = .ok gs.flatten ∧
      m.debug dl dr = .ok ("{" ++ ", ".intercalate (gs.flatten.map fun e =>
        "(" ++ optText dl e.1 ++ ", " ++ dr e.2 ++ ")") ++ "}") ∧
      ∀ n, ∃ (it : Iter R) (j : Nat), Iter.take m n m.iter = .ok (gs.flatten.take n, it) ∧ j ≤ gs.length ∧
        (j = 0 ∨ (gs.take (j - 1)).flatten.length < n) ∧ (n ≤ (gs.take j).flatten.length ∨ j = gs.length) ∧
        it.debug m dl dr = .ok ("[" ++ ", ".intercalate ((gs.drop j).flatten.map fun e =>
          "(" ++ optText dl e.1 ++ ", " ++ dr e.2 ++ ")") ++ "]") := by
  obtain ⟨gs, hp, hl, hg, hd, h2⟩ := C73_actual h hc
  refine ⟨gs, hp, hl, hg, hd, ?_, fun n => ?_⟩
  · rw [debug, hd, debugEntry_eq]; rfl
  · obtain ⟨it, j, e, hj, h3, h4, _, h6, h7, _⟩ := h2 n
    refine ⟨it, j, e, hj, h3, h4, ?_⟩
    obtain ⟨it', e'⟩ := h6 (it.clone.fuel + 1)
    rw [Iter.len, e'] at h7
    have h7 := Except.ok.inj h7
    rw [List.take_of_length_le (by simp only [List.length_take] at h7; omega)] at e'
    rw [Iter.debug, e', debugEntry_eq]; rfl

/-- C102, what holds: the map, and `iter()` as long as it is between two groups (in particular at the start);
`iter_paired()`, `iter_unpaired()` and `get_left_iter(..)` at every position, as well as the iterators over one side.  Missing: `iter()` in the middle of
a group. -/
theorem C102_partial (h : Reachable m) (hc : Shows m c) (dl : L → String) (dr : R → String) :
    (∃ gs : List (List (Option L × R)), gs.flatten.Perm (c.pairs.map (fun p => (some p.1, p.2)) ++
        (c.rights.filter fun r => !c.pairs.any (r == ·.2)).map fun r => (none, r)) ∧ gs.length = c.rights.length ∧
      (∀ g ∈ gs, ∃ r, ∀ e ∈ g, e.2 = r) ∧
      m.debug dl dr = .ok ("{" ++ ", ".intercalate (gs.flatten.map fun e =>
        "(" ++ optText dl e.1 ++ ", " ++ dr e.2 ++ ")") ++ "}") ∧
      ∀ j, j ≤ gs.length → ∃ it, Iter.take m (gs.take j).flatten.length m.iter = .ok ((gs.take j).flatten, it) ∧
        it.debug m dl dr = .ok ("[" ++ ", ".intercalate ((gs.drop j).flatten.map fun e =>
          "(" ++ optText dl e.1 ++ ", " ++ dr e.2 ++ ")") ++ "]")) ∧
    (∃ d : List (L × R), d.Perm c.pairs ∧ ∀ n, ∃ it, PairedIter.take m n m.iterPaired = .ok (d.take n, it) ∧
      it.debug m dl dr = .ok ("[" ++ ", ".intercalate ((d.drop n).map fun p => "(" ++ dl p.1 ++ ", " ++ dr p.2 ++ ")") ++ "]")) ∧
    (∃ d : List R, d.Perm (c.rights.filter fun r => !c.pairs.any (r == ·.2)) ∧
      ∀ n, ∃ it, UnpairedIter.take n m.iterUnpaired = (d.take n, it) ∧
        it.debug dr = "[" ++ ", ".intercalate ((d.drop n).map dr) ++ "]") ∧
    (∀ r it₀, m.getLeftIter r = some it₀ → ∃ d : List L, d.Perm ((c.pairs.filter (r == ·.2)).map (·.1)) ∧
      ∀ n, ∃ it, PairIter.take m n it₀ = .ok (d.take n, it) ∧
        it.debug m dl = .ok ("[" ++ ", ".intercalate ((d.drop n).map dl) ++ "]")) ∧
    (∀ k, m.debugLeftIter k dl = "[" ++ ", ".intercalate ((m.iterLeft.drop k).map dl) ++ "]") ∧
    (∀ k, m.debugRightIter k dr = "[" ++ ", ".intercalate ((m.iterRight.drop k).map dr) ++ "]") := by
  have h' := h.repr_of_shows hc
  refine ⟨?_, ?_, ?_, ?_, fun _ => rfl, fun _ => rfl⟩
  · obtain ⟨gs, hp, hl, hg, _, hd, h2⟩ := C102_actual h hc dl dr
    refine ⟨gs, hp, hl, fun g hm => (hg g hm).2, hd, fun j hj => ?_⟩
    obtain ⟨it, i, e, hi, h3, h4, h5⟩ := h2 (gs.take j).flatten.length
    have hij : i = j := by
      rcases Nat.lt_trichotomy i j with hlt | heq | hgt
      · have := flatten_take_succ gs (fun g hm => (hg g hm).1) hlt hj
        rcases h4 with h4 | h4 <;> omega
      · exact heq
      · rcases h3 with h3 | h3
        · omega
        · rcases Nat.lt_or_ge j (i - 1) with hlt | hge
          · have := flatten_take_succ gs (fun g hm => (hg g hm).1) hlt (by omega)
            omega
          · have : i - 1 = j := by omega
            rw [this] at h3; omega
    subst hij
    have ht : gs.flatten.take (gs.take i).flatten.length = (gs.take i).flatten := by
      conv => lhs; arg 2; rw [← List.take_append_drop i gs, List.flatten_append]
      rw [List.take_left]
    rw [ht] at e
    exact ⟨it, e, h5⟩
  · obtain ⟨d, hp, h2⟩ := iterPaired_take h'
    refine ⟨d, hp, fun n => ?_⟩
    obtain ⟨it, e, h3, _, h4⟩ := h2 n
    obtain ⟨it', e'⟩ := h4 (it.todo.length + 1)
    rw [PairedIter.len, e'] at h3
    have h3 := Except.ok.inj h3
    rw [List.take_of_length_le (by simp only [List.length_take] at h3; omega)] at e'
    exact ⟨it, e, by rw [PairedIter.debug, PairedIter.clone, e']; rfl⟩
  · obtain ⟨d, hp, h2⟩ := iterUnpaired_take h'
    refine ⟨d, hp, fun n => ?_⟩
    obtain ⟨e, h3, _, h4⟩ := h2 n
    refine ⟨_, Prod.ext e rfl, ?_⟩
    have e' := h4 ((UnpairedIter.take n m.iterUnpaired).2.todo.length + 1)
    rw [UnpairedIter.len, e'] at h3
    rw [List.take_of_length_le (by simp only [List.length_take] at h3; omega)] at e'
    rw [UnpairedIter.debug, UnpairedIter.clone, e']; rfl
  · intro r it₀ hit
    rcases getLeft_take h' r with ⟨_, h2⟩ | ⟨it, ks, _, h2, h3, h4⟩
    · rw [hit] at h2; cases h2
    · rw [hit] at h2; cases h2
      refine ⟨ks, h3, fun n => ?_⟩
      obtain ⟨it', e, h5, h6⟩ := h4 n
      obtain ⟨it'', e'⟩ := h6 (it'.todo.length + 1)
      rw [List.take_of_length_le (by rw [← h5, PairIter.len]; omega)] at e'
      exact ⟨it', e, by rw [PairIter.debug, PairIter.clone, e']; rfl⟩

/-- a map with one group of two: `[(Some(1), 10), (Some(2), 10)]` -/
theorem two_in_a_group : ∃ m : GroupMap Nat Nat, fromIterOpt constHash [(some 1, 10), (some 2, 10)] = .ok m ∧
    Reachable m ∧ Shows m ⟨[10], [(2, 10), (1, 10)]⟩ := by
  have hn : NewPairs (GroupSpec.empty : Contents Nat Nat) [(some 1, 10), (some 2, 10)] := by
    simp [NewPairs, hasPair, GroupSpec.empty, GroupSpec.insert, findR, findL, eraseL]
  obtain ⟨m, e, hr, _⟩ := extendOpt_refines (withHasher_repr constHash) _ hn
  exact ⟨m, e, (Reachable.new constHash).extendOpt (withHasher_repr constHash) _ hn e, hr.shows⟩

/-- it prints as one of two strings; after one step of `iter()` the iterator prints as if nothing were left, but it
yields one more item -/
theorem C102_mid_group {m : GroupMap Nat Nat} (h : Reachable m) (hc : Shows m ⟨[10], [(2, 10), (1, 10)]⟩) :
    (m.debug toString toString = .ok "{(Some(2), 10), (Some(1), 10)}" ∨ m.debug toString toString = .ok "{(Some(1), 10), (Some(2), 10)}") ∧
    ∃ x y it it', Iter.take m 1 m.iter = .ok ([x], it) ∧ it.debug m toString toString = .ok "[]" ∧ Iter.take m 1 it = .ok ([y], it') := by
  obtain ⟨gs, hp, hl, hg, hd, e, h2⟩ := C102_actual h hc toString toString
  obtain ⟨g, rfl⟩ := List.length_eq_one_iff.1 (hl : gs.length = 1)
  have hp : g.Perm [(some 2, 10), (some 1, 10)] := by simpa using hp
  have h4 := hp.length_eq
  match g, h4 with
  | [x, y], _ =>
    refine ⟨?_, ?_⟩
    · rw [e]
      have h1 : (some 2, 10) ∈ [x, y] := hp.mem_iff.2 (by simp)
      have h2 : (some 1, 10) ∈ [x, y] := hp.mem_iff.2 (by simp)
      simp only [List.mem_cons, List.not_mem_nil, or_false] at h1 h2
      rcases h1 with rfl | rfl <;> rcases h2 with h2 | h2
      · cases h2
      · subst h2; exact .inl (congrArg _ (by decide))
      · subst h2; exact .inr (congrArg _ (by decide))
      · cases h2
    · obtain ⟨it, j, e1, hj, h3, h5, h6⟩ := h2 1
      obtain ⟨gs', _, _, _, hd', h7⟩ := C73_actual h hc
      obtain rfl : j = 1 := by
        rcases h5 with h5 | h5
        · rcases j with _ | j
          · simp at h5
          · simp at hj; omega
        · exact h5
      obtain ⟨it2, _, e2, _, _, _, h8, _⟩ := h7 1
      rw [hd] at hd'
      have hgs : [[x, y]].flatten = gs'.flatten := Except.ok.inj hd'
      rw [← hgs] at e2 h8
      rw [e1] at e2
      obtain rfl := (Prod.ext_iff.1 (Except.ok.inj e2)).2
      obtain ⟨it', e3⟩ := h8 1
      exact ⟨x, y, it, it', e1, h6, e3⟩

example : ∃ m : GroupMap Nat Nat, fromIterOpt constHash [(some 1, 10), (some 2, 10)] = .ok m ∧
    (m.debug toString toString = .ok "{(Some(2), 10), (Some(1), 10)}" ∨ m.debug toString toString = .ok "{(Some(1), 10), (Some(2), 10)}") :=
  have ⟨m, e, hr, hs⟩ := two_in_a_group
  ⟨m, e, (C102_mid_group hr hs).1⟩

/-- `C102_partial` on a map with two groups and a lone right item: nothing was taken yet -/
example : ∃ d : List (Option Nat × Nat), d.Perm [(some 3, 20), (some 2, 10), (some 1, 10), (none, 30)] ∧
    demo.iter.debug demo toString toString = .ok ("[" ++ ", ".intercalate (d.map fun e =>
      "(" ++ optText toString e.1 ++ ", " ++ toString e.2 ++ ")") ++ "]") := by
  obtain ⟨⟨gs, hp, _, _, _, h⟩, _⟩ := C102_partial demo_reachable demo_shows toString toString
  obtain ⟨it, e, h⟩ := h 0 (Nat.zero_le _)
  obtain rfl : demo.iter = it := (Prod.ext_iff.1 (Except.ok.inj e)).2
  exact ⟨gs.flatten, hp, by rw [h, List.drop_zero]⟩

omit [RawImpl] [LawfulRaw] in
/-- the witness: one step into a group of two -/
theorem C102_false : ¬ C102_full := by
  intro h
  letI := messyRaw; haveI := messyRaw_lawful
  obtain ⟨m, -, hr, hs⟩ := two_in_a_group
  obtain ⟨⟨d, _, hd, _, h2⟩, -⟩ := h Nat Nat m _ toString toString hr hs
  obtain ⟨it, e, h3⟩ := h2 1
  obtain ⟨_, x, y, it2, it', e2, h4, e5⟩ := C102_mid_group hr hs
  rw [e] at e2
  obtain rfl := (Prod.ext_iff.1 (Except.ok.inj e2)).2
  obtain ⟨gs, hp, _, _, hd', _⟩ := C102_actual hr hs toString toString
  rw [hd] at hd'
  obtain rfl : d = gs.flatten := Except.ok.inj hd'
  have hl : gs.flatten.length = 2 := hp.length_eq
  generalize gs.flatten = d at *
  match d, hl with
  | [a, b], _ =>
    rw [h4] at h3
    have h3 := congrArg String.toList (Except.ok.inj h3)
    simp at h3

end Verif.GroupMap
