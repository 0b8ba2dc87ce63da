import Verif.Props.CycleTraits
import Verif.Props.Memory
/-! Properties C118 and C119 of `CycleMap`: memory taken while deserializing; serializing into a format that may fail. -/
set_option linter.unusedSectionVars false
namespace Verif.CycleMap
open RawTable Demo
section
variable [RawImpl] [LawfulRaw] {L R : Type} [BEq L] [BEq R] [EquivBEq L] [EquivBEq R] {m : CycleMap L R} {c : List (L × R)}

/-! ### C118 -/

/-- C118 in full: the memory of a deserialized map is bounded by a function of the number of elements the format
delivered.  False, see `C118_false`. -/
def C118_full (L R : Type) [BEq L] [BEq R] : Prop :=
  ∃ B : Nat → Nat, ∀ (hb : BuildHasher L R) (hint : Option Nat) (xs : List (L × R)) (m' : CycleMap L R),
    visitSeq (E := Unit) hb hint (xs.map .ok) = .ok (.ok m') → m'.left.capacity ≤ B xs.length ∧ m'.right.capacity ≤ B xs.length

/-- What holds: so it is if the format announces no length, or at most the number of elements it then delivers. -/
theorem C118_partial [LawfulMem] {E : Type} (hb : BuildHasher L R) (hint : Option Nat) (xs : List (L × R))
    (hh : ∀ n, hint = some n → n ≤ xs.length) {m' : CycleMap L R}
    (h : visitSeq (E := E) hb hint (xs.map .ok) = .ok (.ok m')) :
    m'.left.capacity ≤ 4 * xs.length + 3 ∧ m'.right.capacity ≤ 4 * xs.length + 3 := by
  obtain ⟨m1, e1, e2, -⟩ := visitLoop_ok (E := E) (withCapacity_repr (hint.getD 0) hb) xs []
  rw [List.append_nil] at e2
  rw [visitSeq, e2] at h
  cases h
  have hn : hint.getD 0 ≤ xs.length := by
    cases hint with
    | none => exact Nat.zero_le _
    | some n => exact hh n rfl
  have h0 : ∀ {T : Type}, (RawTable.withCapacity (hint.getD 0) : RawTable T).len = 0 := by
    intro T
    simp only [RawTable.len, RawTable.withCapacity, (LawfulRaw.touch_perm _ _).length_eq]; rfl
  have l : ∀ {T : Type} {t : RawTable T}, Room .memory xs.length (RawTable.withCapacity (hint.getD 0) : RawTable T) t →
      t.capacity ≤ 4 * xs.length + 3 := by
    intro T t ⟨a1, a2⟩
    have h1 := LawfulMem.new (hint.getD 0) (T := T)
    have h2 := LawfulMem.capacity t
    rw [h0] at a1 a2
    omega
  have := extend_roomy (G := .memory) e1
  exact ⟨l this.1, l this.2⟩

/-- What happens instead: the announced length is allocated for, whatever follows — even if nothing does. -/
theorem C118_actual [LawfulCap] {E : Type} (hb : BuildHasher L R) (n : Nat) :
    ∃ m' : CycleMap L R, visitSeq (E := E) hb (some n) [] = .ok (.ok m') ∧ m'.len = 0 ∧
      n ≤ m'.left.capacity ∧ n ≤ m'.right.capacity := by
  have h0 : ∀ {T : Type}, (RawTable.withCapacity n : RawTable T).len = 0 := by
    intro T
    simp only [RawTable.len, RawTable.withCapacity, (LawfulRaw.touch_perm _ _).length_eq]; rfl
  exact ⟨_, rfl, h0, Nat.le_trans (LawfulCap.new n) (Nat.le_add_left _ _), Nat.le_trans (LawfulCap.new n) (Nat.le_add_left _ _)⟩

theorem C118_false [LawfulCap] (hb : BuildHasher L R) : ¬ C118_full L R := by
  rintro ⟨B, h⟩
  obtain ⟨m', e, -, h1, -⟩ := C118_actual (E := Unit) hb (B 0 + 1)
  have := (h hb (some (B 0 + 1)) [] m' e).1
  simp only [List.length_nil] at this
  omega

end

section
local instance serdeRaw : RawImpl := swissRaw 4
local instance serdeRaw_lawful : LawfulRaw := swissRaw_lawful 4
local instance serdeRaw_mem : LawfulMem := swissRaw_mem 4
local instance serdeRaw_cap : LawfulCap := swissRaw_cap 4

example : ∃ m', visitSeq (E := Unit) spreadHash (some 2) [.ok (1, 11), .ok (2, 12), .ok (1, 13)] = .ok (.ok m') ∧
    m'.left.capacity ≤ 15 ∧ m'.right.capacity ≤ 15 := by
  obtain ⟨m', c', e, -, -, -⟩ := (C30_deserialize (E := Unit) spreadHash (some 2) [(1, 11), (2, 12), (1, 13)]).1
  exact ⟨m', e, C118_partial spreadHash (some 2) [(1, 11), (2, 12), (1, 13)] (by rintro _ ⟨⟩; decide) e⟩

example : ¬ C118_full Nat Nat := C118_false spreadHash

end

section
variable [RawImpl] [LawfulRaw] {L R : Type} [BEq L] [BEq R] [EquivBEq L] [EquivBEq R] {m : CycleMap L R} {c : List (L × R)}

/-! ### C119 -/

theorem serializeLoop_ok {E O : Type} (S : Sink E O L R) {todo : List (MappingPair L)} {ps : List (L × R)}
    (h : Iter.collect m todo = .ok ps) (s : S.State) : m.serializeLoop S todo s = .ok (ps.foldlM S.element s) := by
  induction todo generalizing ps s with
  | nil => cases h; rfl
  | cons l rest ih =>
    rw [Iter.collect] at h
    obtain ⟨o, h1, h⟩ := bind_ok h
    rw [serializeLoop, h1]
    cases o with
    | none => cases h; rfl
    | some o =>
      obtain ⟨p, it⟩ := o
      obtain ⟨ps', h2, h⟩ := bind_ok h
      cases h
      simp only [bind, Except.bind, List.foldlM_cons]
      cases S.element s p with
      | error e => rfl
      | ok s1 => exact ih h2 s1

/-- C119: serializing into any format: the format is told the number of pairs, then it gets every pair, each once,
until one of its operations fails; the first failure ends everything and is returned; the crate itself never panics. -/
theorem C119_serialize_fallible {E O : Type} (S : Sink E O L R) (h : Reachable m) (hc : Shows m c) :
    ∃ xs : List (L × R), xs.Perm c ∧ m.serializeTo S = .ok (do
      let s ← S.start (some c.length)
      let s ← xs.foldlM S.element s
      S.finish s) := by
  obtain ⟨xs, e, hp⟩ := iterList_refines (h.repr_of_shows hc)
  refine ⟨xs, hp, ?_⟩
  simp only [serializeTo, hc.len]
  cases S.start (some c.length) with
  | error e => rfl
  | ok s =>
    simp only [serializeLoop_ok S e s, bind, Except.bind]
    cases xs.foldlM S.element s <;> rfl

end

/-- a format that writes at most two pairs -/
private def twoAtMost : Sink String (List Nat) Nat Nat where
  State := List Nat
  start _ := .ok []
  element s p := if s.length < 4 then .ok (s ++ [p.1, p.2]) else .error "full"
  finish s := .ok s

section
local instance sinkRaw : RawImpl := messyRaw
local instance sinkRaw_lawful : LawfulRaw := messyRaw_lawful

example : ∃ xs : List (Nat × Nat), xs.Perm [(3, 30), (2, 20), (1, 10)] ∧ demo.serializeTo twoAtMost = .ok (do
      let s ← twoAtMost.start (some 3)
      let s ← xs.foldlM twoAtMost.element s
      twoAtMost.finish s) :=
  C119_serialize_fallible twoAtMost demo_reachable demo_shows

example : demo.serializeTo twoAtMost = .ok (.error "full") := by decide +kernel

end

end Verif.CycleMap
