import Verif.Keyed
/-! Properties of tables that every call of `RawTable` preserves. -/
namespace Verif.RawTable

/-- the elements a mask lets stay -/
def staying {α : Type} (es : List α) (stays : List Bool) : List α :=
  (es.zip stays).filterMap fun x => if x.2 then some x.1 else none


variable [RawImpl]

/-- `P` holds of new tables and is preserved by every call. -/
class Closed (P : (T : Type) → RawTable T → Prop) : Prop where
  new : ∀ {T : Type} (n : Nat), P _ (withCapacity n : RawTable T)
  insert : ∀ {T : Type} {t : RawTable T}, P _ t → ∀ h v hasher, P _ (t.insert h v hasher)
  removeEntry : ∀ {T : Type} {t t' : RawTable T} {h p x}, P _ t → t.removeEntry h p = some (x, t') → P _ t'
  getMut : ∀ {T : Type} {t : RawTable T} {h p x w}, P _ t → t.getMut h p = some (x, w) → ∀ v, P _ (w v)
  clear : ∀ {T : Type} {t : RawTable T}, P _ t → P _ t.clear
  erase : ∀ {T : Type} {t : RawTable T} {stays}, P _ t → stays.length = t.entries.length →
    P _ (RawImpl.touch (.erase stays) { t with entries := staying t.entries stays })
  reserve : ∀ {T : Type} {t : RawTable T}, P _ t → ∀ n hasher, P _ (t.reserve n hasher)
  shrinkTo : ∀ {T : Type} {t : RawTable T}, P _ t → ∀ n hasher, P _ (t.shrinkTo n hasher)
  clone : ∀ {T : Type} {t : RawTable T}, P _ t → ∀ c, P _ (t.clone c)

omit [RawImpl] in
/-- A sublist is what stays if the elements that stay are recognised by a key that is not used twice. -/
theorem staying_key {α : Type} {key : α → Nat} {es ks : List α} (hn : (es.map key).Nodup) (hs : ks.Sublist es) :
    staying es (es.map fun e => ks.any (key · == key e)) = ks := by
  have h1 : ∀ q : α → Bool, staying es (es.map q) = es.filter q := by
    intro q
    clear hn hs
    induction es with
    | nil => rfl
    | cons x xs ih =>
      simp only [staying] at ih ⊢
      by_cases hx : q x = true <;> simp [hx, ih]
  rw [h1]
  clear h1
  induction hs with
  | slnil => rfl
  | cons a hs ih =>
    rename_i l₁ l₂
    rw [List.map_cons, List.nodup_cons] at hn
    have : l₁.any (key · == key a) = false := by
      rw [List.any_eq_false]
      intro x hx hc
      rw [beq_iff_eq] at hc
      exact hn.1 (hc ▸ List.mem_map_of_mem (hs.subset hx))
    rw [List.filter_cons, this]
    exact ih hn.2
  | cons_cons a hs ih =>
    rename_i l₁ l₂
    rw [List.map_cons, List.nodup_cons] at hn
    rw [List.filter_cons, if_pos (by simp)]
    congr 1
    refine (List.filter_congr fun x hx => ?_).trans (ih hn.2)
    have : (key a == key x) = false := by
      rw [beq_eq_false_iff_ne]
      intro hc
      exact hn.1 (hc ▸ List.mem_map_of_mem hx)
    simp [this]

variable {P : (T : Type) → RawTable T → Prop} {T : Type} {t t' t'' : RawTable T}

/-- `t'` has the property if `t` has it -/
structure Keeps (P : (T : Type) → RawTable T → Prop) (t t' : RawTable T) : Prop where
  imp : P T t → P T t'

namespace Keeps

omit [RawImpl] in
theorem refl : Keeps P t t := ⟨id⟩
omit [RawImpl] in
theorem trans (h : Keeps P t t') (h' : Keeps P t' t'') : Keeps P t t'' := ⟨fun x => h'.imp (h.imp x)⟩

variable [Closed P]

theorem removeEntry {h p x} (e : t.removeEntry h p = some (x, t')) : Keeps P t t' := ⟨fun y => Closed.removeEntry y e⟩
theorem getMut {h p x w} (e : t.getMut h p = some (x, w)) (v : T) : Keeps P t (w v) := ⟨fun y => Closed.getMut y e v⟩
theorem insert (h v) (hasher : T → UInt64) : Keeps P t (t.insert h v hasher) := ⟨fun y => Closed.insert y h v hasher⟩
theorem clear : Keeps P t t.clear := ⟨fun y => Closed.clear y⟩
theorem reserve (n) (hasher : T → UInt64) : Keeps P t (t.reserve n hasher) := ⟨fun y => Closed.reserve y n hasher⟩
theorem shrinkTo (n) (hasher : T → UInt64) : Keeps P t (t.shrinkTo n hasher) := ⟨fun y => Closed.shrinkTo y n hasher⟩
theorem clone (c : T → T) : Keeps P t (t.clone c) := ⟨fun y => Closed.clone y c⟩

theorem erase {key : UInt64 × T → Nat} {es} (hn : (t.entries.map key).Nodup) (hs : es.Sublist t.entries) :
    Keeps P t (RawImpl.touch (.erase (t.entries.map fun e => es.any (key · == key e))) { t with entries := es }) := by
  refine ⟨fun y => ?_⟩
  have := Closed.erase (P := P) (t := t) (stays := t.entries.map fun e => es.any (key · == key e)) y (by simp)
  rwa [staying_key hn hs] at this

end Keeps

/-- `t'` comes from `t` by taking elements out, and has the property if `t` has it -/
structure Lost (P : (T : Type) → RawTable T → Prop) (t t' : RawTable T) : Prop where
  keeps : Keeps P t t'
  perm : ∃ xs, t.entries.Perm (xs ++ t'.entries)

namespace Lost

omit [RawImpl] in
theorem refl : Lost P t t := ⟨.refl, [], .refl _⟩
omit [RawImpl] in
theorem trans (h : Lost P t t') (h' : Lost P t' t'') : Lost P t t'' := by
  obtain ⟨xs, hx⟩ := h.perm
  obtain ⟨ys, hy⟩ := h'.perm
  exact ⟨h.keeps.trans h'.keeps, xs ++ ys, hx.trans (by simpa using hy.append_left xs)⟩
theorem removeEntry [LawfulRaw] [Closed P] {h p x} (e : t.removeEntry h p = some (x, t')) : Lost P t t' := by
  obtain ⟨-, k, hk⟩ := removeEntry_perm e
  exact ⟨.removeEntry e, [(k, x)], by simpa using hk⟩
omit [RawImpl] in
theorem nodup (h : Lost P t t') {key : UInt64 × T → Nat} (hn : (t.entries.map key).Nodup) :
    (t'.entries.map key).Nodup := by
  obtain ⟨xs, hx⟩ := h.perm
  have := (hx.map key).nodup_iff.1 hn
  rw [List.map_append] at this
  exact (List.nodup_append.1 this).2.1

end Lost
end Verif.RawTable
