import Verif.RawLemmas
/-! How a quantity of a table changes with the calls: its room (the number of elements it takes without growing), from
below, and the memory it has allocated, from above. -/
namespace Verif.RawTable

/-- A way to compare a table with an earlier version of it, given the number of elements put in meanwhile; `cost n` is
what a `reserve(n)` counts for. -/
structure Meter where
  rel : Nat → {T : Type} → RawTable T → RawTable T → Prop
  cost : Nat → Nat

/-- what the calls of `RawTable` do to the quantity -/
class Meter.Lawful [RawImpl] (G : Meter) : Prop where
  refl : ∀ {T : Type} (k : Nat) (t : RawTable T), G.rel k t t
  mono : ∀ {T : Type} {k k' : Nat} {t t' : RawTable T}, G.rel k t t' → k ≤ k' → G.rel k' t t'
  trans : ∀ {T : Type} {k k' : Nat} {t t' t'' : RawTable T}, G.rel k t t' → G.rel k' t' t'' → G.rel (k + k') t t''
  congr : ∀ {T : Type} {t t' : RawTable T}, t.aux = t'.aux → t.entries.map (·.1) = t'.entries.map (·.1) → G.rel 0 t t'
  insert : ∀ {T : Type} (t : RawTable T) (h : UInt64) (v : T) (hasher : T → UInt64), G.rel 1 t (t.insert h v hasher)
  erase : ∀ {T : Type} (t : RawTable T) (stays : List Bool) (es : List (UInt64 × T)), es.Sublist t.entries →
    G.rel 0 t (RawImpl.touch (.erase stays) { t with entries := es })
  clear : ∀ {T : Type} (t : RawTable T), G.rel 0 t t.clear
  reserve : ∀ {T : Type} (t : RawTable T) (n : Nat) (hasher : T → UInt64), G.rel (G.cost n) t (t.reserve n hasher)

/-- shrinking counts for nothing -/
def Meter.Shrinks [RawImpl] (G : Meter) : Prop :=
  ∀ {T : Type} (t : RawTable T) (n : Nat) (hasher : T → UInt64), G.rel 0 t (t.shrinkTo n hasher)

/-- `t'` has at most `k` less room than `t` -/
@[reducible] def Meter.room [RawImpl] : Meter where
  rel k _ t t' := RawImpl.growthLeft t ≤ RawImpl.growthLeft t' + k
  cost _ := 0

instance [RawImpl] [LawfulRaw] [LawfulCap] : Meter.room.Lawful where
  refl _ _ := Nat.le_add_right _ _
  mono := fun {_ k k' _ _} (h : _ ≤ _ + k) hk => show _ ≤ _ + k' by omega
  trans := fun {_ k k' _ _ _} (h : _ ≤ _ + k) (h' : _ ≤ _ + k') => show _ ≤ _ + (k + k') by omega
  congr h h' := Nat.le_of_eq (LawfulCap.congr _ _ h h')
  insert := LawfulCap.insert
  erase := LawfulCap.erase
  clear := fun {T} t => by
    have := LawfulCap.clear t
    have h : t.clear.entries.length = 0 := by rw [clear_entries]; rfl
    simp only [RawTable.capacity, RawTable.len] at this
    show _ ≤ _ + 0
    omega
  reserve := LawfulCap.reserve_mono

variable [RawImpl] {T : Type}

/-- the quantity of `t'` compared with that of `t` after `k` elements were put in -/
def Room (G : Meter) (k : Nat) (t t' : RawTable T) : Prop := G.rel k t t'

namespace Room
variable {G : Meter} [G.Lawful] {t t' t'' : RawTable T} {k k' : Nat}

theorem refl : Room G k t t := Meter.Lawful.refl _ _

theorem mono (h : Room G k t t') (hk : k ≤ k') : Room G k' t t' := Meter.Lawful.mono h hk

theorem trans (h : Room G k t t') (h' : Room G k' t' t'') : Room G (k + k') t t'' := Meter.Lawful.trans h h'

theorem trans0 (h : Room G 0 t t') (h' : Room G k t' t'') : Room G k t t'' := by simpa using h.trans h'

theorem trans1 (h : Room G k t t') (h' : Room G 0 t' t'') : Room G k t t'' := by simpa using h.trans h'

theorem removeEntry {h p x} (e : t.removeEntry h p = some (x, t')) : Room G 0 t t' := by
  simp only [RawTable.removeEntry] at e
  split at e
  · cases e
  · obtain ⟨y, _, e⟩ := Option.map_eq_some_iff.1 e
    cases e
    exact Meter.Lawful.erase t _ _ (List.eraseIdx_sublist _ _)

theorem getMut {h p x w} (e : t.getMut h p = some (x, w)) (v : T) : Room G 0 t (w v) := by
  simp only [RawTable.getMut] at e
  split at e
  · cases e
  · rename_i i _
    obtain ⟨y, hy, e⟩ := Option.map_eq_some_iff.1 e
    cases e
    refine Meter.Lawful.congr rfl ?_
    apply List.ext_getElem?
    intro j
    simp only [List.getElem?_map, List.getElem?_set]
    split
    · subst_vars
      rw [hy]
      have := (List.getElem?_eq_some_iff.1 hy).1
      simp [this]
    · rfl

theorem insert (h v) (hasher : T → UInt64) : Room G 1 t (t.insert h v hasher) := Meter.Lawful.insert t h v hasher

theorem clear : Room G 0 t t.clear := Meter.Lawful.clear t

theorem erase {stays es} (h : es.Sublist t.entries) : Room G 0 t (RawImpl.touch (.erase stays) { t with entries := es }) :=
  Meter.Lawful.erase t stays es h

theorem reserve (n) (hasher : T → UInt64) : Room G (G.cost n) t (t.reserve n hasher) := Meter.Lawful.reserve t n hasher

theorem clone (c : T → T) : Room G 0 t (t.clone c) := Meter.Lawful.congr rfl (by simp [RawTable.clone])

omit [G.Lawful] in
theorem shrink (hG : G.Shrinks) (n) (hasher : T → UInt64) : Room G 0 t (t.shrinkTo n hasher) := hG t n hasher

end Room
end Verif.RawTable
