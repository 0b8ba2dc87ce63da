import Verif.Raw
/-
Concrete tables meeting the contract `LawfulRaw`, used for the examples beside the theorems.
-/
namespace Verif

/-- The first entry stored under the probed hash that satisfies the predicate; mutations keep the order, `aux` is
the capacity and every removal gives its room back. -/
@[reducible] def tidyRaw : RawImpl where
  find t h p := t.entries.findIdx? fun e => e.1 == h && p e.2
  touch op t := { t with aux := match op with
    | .new n => n
    | .insert _ => max t.aux t.entries.length
    | .clear n => max t.aux n
    | .reserve n => max t.aux (t.entries.length + n)
    | .shrink n => max t.entries.length (min t.aux n)
    | _ => t.aux }
  rehashes _ _ := false
  growthLeft t := t.aux - t.entries.length

theorem tidyRaw_lawful : @LawfulRaw tidyRaw := by
  letI := tidyRaw
  refine @LawfulRaw.mk tidyRaw ?_ ?_ ?_
  · intro T t h p i hi
    obtain ⟨hlt, hp, _⟩ := List.findIdx?_eq_some_iff_getElem.1 hi
    exact ⟨t.entries[i], by simp [hlt], (Bool.and_eq_true _ _ ▸ hp).2⟩
  · intro T t h p e he hh hp hn
    have := List.findIdx?_eq_none_iff.1 hn e he
    simp [hh, hp] at this
  · intro T c t; exact .refl _

theorem tidyRaw_cap : @LawfulCap tidyRaw := by
  letI := tidyRaw
  refine @LawfulCap.mk tidyRaw ?_ ?_ ?_ ?_ ?_ ?_ ?_ ?_ ?_ ?_
  · intro T T' t t' h1 h2
    have := congrArg List.length h2
    simp only [List.length_map] at this
    show t.aux - _ = t'.aux - _
    rw [h1, this]
  · intro T n; exact Nat.le_refl n
  · intro T T' n; rfl
  · intro T t h v hs
    show t.aux - t.entries.length ≤ max t.aux (t.entries.length + 1) - (t.entries.length + 1) + 1
    omega
  · intro T t _ _; rfl
  · intro T t _ es h
    show t.aux - t.entries.length ≤ t.aux - es.length
    have := h.length_le
    omega
  · intro T t
    show t.entries.length + (t.aux - t.entries.length) ≤ 0 + (max t.aux t.entries.length - 0)
    omega
  · intro T t n hs
    show n ≤ max t.aux (t.entries.length + n) - t.entries.length
    omega
  · intro T t n hs
    show t.aux - t.entries.length ≤ max t.aux (t.entries.length + n) - t.entries.length
    omega
  · intro T t n hs
    show min (t.entries.length + (t.aux - t.entries.length)) (max t.entries.length n) ≤
      t.entries.length + (max t.entries.length (min t.aux n) - t.entries.length)
    omega

/-- Ignores the hash, probes from the back, and reverses the layout at every mutation; rehashes whenever it can. -/
@[reducible] def messyRaw : RawImpl where
  find t _ p := (t.entries.reverse.findIdx? fun e => p e.2).map fun i => t.entries.length - 1 - i
  touch _ t := { entries := t.entries.reverse, aux := t.aux + 1 }
  rehashes _ _ := true
  growthLeft _ := 0

theorem messyRaw_lawful : @LawfulRaw messyRaw := by
  letI := messyRaw
  refine @LawfulRaw.mk messyRaw ?_ ?_ ?_
  · intro T t h p i hi
    obtain ⟨j, hj, rfl⟩ := Option.map_eq_some_iff.1 hi
    obtain ⟨hlt, hp, _⟩ := List.findIdx?_eq_some_iff_getElem.1 hj
    rw [List.getElem_reverse] at hp
    simp at hlt
    exact ⟨_, List.getElem?_eq_getElem (by omega), hp⟩
  · intro T t h p e he hh hp hn
    have := List.findIdx?_eq_none_iff.1 (Option.map_eq_none_iff.1 hn) e (by simpa using he)
    simp [hp] at this
  · intro T c t; exact List.reverse_perm _

/-- Like `tidyRaw`, but a removal leaves a tombstone (and gives no room back) unless all hashes that stay are even;
`aux` is the room. -/
@[reducible] def patchyRaw : RawImpl where
  find t h p := t.entries.findIdx? fun e => e.1 == h && p e.2
  touch op t := { t with aux := match op with
    | .new n => n
    | .insert _ => t.aux - 1
    | .erase _ => if t.entries.all (fun e => e.1 % 2 == 0) then t.aux + 1 else t.aux
    | .clear n => t.aux + n
    | .reserve n => max t.aux n
    | .shrink n => min t.aux (n - t.entries.length) }
  rehashes _ _ := false
  growthLeft t := t.aux

theorem patchyRaw_lawful : @LawfulRaw patchyRaw := by
  letI := patchyRaw
  refine @LawfulRaw.mk patchyRaw ?_ ?_ ?_
  · exact tidyRaw_lawful.find_sound
  · exact tidyRaw_lawful.find_complete
  · intro T c t; exact .refl _

theorem patchyRaw_cap : @LawfulCap patchyRaw := by
  letI := patchyRaw
  refine @LawfulCap.mk patchyRaw ?_ ?_ ?_ ?_ ?_ ?_ ?_ ?_ ?_ ?_
  · intro T T' t t' h1 h2; exact h1
  · intro T n; exact Nat.le_refl n
  · intro T T' n; rfl
  · intro T t h v hs
    show t.aux ≤ t.aux - 1 + 1
    omega
  · intro T t _ _; rfl
  · intro T t _ es h
    show t.aux ≤ if es.all (fun e => e.1 % 2 == 0) then t.aux + 1 else t.aux
    split <;> omega
  · intro T t
    show t.entries.length + t.aux ≤ 0 + (t.aux + t.entries.length)
    omega
  · intro T t n hs
    show n ≤ max t.aux n
    omega
  · intro T t n hs
    show t.aux ≤ max t.aux n
    omega
  · intro T t n hs
    show min (t.entries.length + t.aux) (max t.entries.length n) ≤
      t.entries.length + min t.aux (n - t.entries.length)
    omega

/-- A spread-out hash function. -/
def spreadHash : BuildHasher Nat Nat := ⟨fun x => x.toUInt64, fun x => (x + 7).toUInt64,
  fun a b h => by rw [eq_of_beq h], fun a b h => by rw [eq_of_beq h]⟩

/-- The constant hash function: everything collides. -/
def constHash : BuildHasher Nat Nat := ⟨fun _ => 0, fun _ => 0, fun _ _ _ => rfl, fun _ _ _ => rfl⟩

end Verif
