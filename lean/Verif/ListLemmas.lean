/-! List lemmas used by the refinement proofs. -/
namespace Verif

theorem perm_map_inv {α β : Type} {f : α → β} {l : List β} {ps : List α} (h : l.Perm (ps.map f)) :
    ∃ qs, ps.Perm qs ∧ l = qs.map f := by
  generalize hm : ps.map f = k at h
  induction h generalizing ps with
  | nil => exact ⟨ps, .refl _, hm.symm⟩
  | cons x _ ih =>
    cases ps with
    | nil => simp at hm
    | cons p ps =>
      simp at hm
      obtain ⟨qs, hq, rfl⟩ := ih hm.2
      exact ⟨p :: qs, hq.cons p, by simp [hm.1]⟩
  | swap x y l =>
    match ps, hm with
    | p :: q :: ps, hm =>
      simp at hm
      exact ⟨q :: p :: ps, .swap _ _ _, by simp [hm]⟩
  | trans _ _ ih1 ih2 =>
    obtain ⟨qs, hq, rfl⟩ := ih2 hm
    obtain ⟨rs, hr, rfl⟩ := ih1 rfl
    exact ⟨rs, hq.trans hr, rfl⟩

theorem find?_eq_some_of_perm {α : Type} {P : α → Bool} {c c' : List α} {a : α} (hp : c.Perm (a :: c'))
    (ha : P a = true) (hn : ∀ q ∈ c', P q = false) : c.find? P = some a := by
  cases hf : c.find? P with
  | none => simp [List.find?_eq_none] at hf; have := hf a (hp.mem_iff.2 (by simp)); simp_all
  | some b =>
    have hb := List.find?_some hf
    rcases List.mem_cons.1 (hp.mem_iff.1 (List.mem_of_find?_eq_some hf)) with rfl | hm
    · rfl
    · rw [hn b hm] at hb; cases hb

theorem filter_eq_self_of {α : Type} {P : α → Bool} {c : List α} (hn : ∀ q ∈ c, P q = false) :
    c.filter (fun a => !P a) = c := by
  rw [List.filter_eq_self]; intro a ha; simp [hn a ha]

theorem filter_perm_tail {α : Type} {P : α → Bool} {c c' : List α} {a : α} (hp : c.Perm (a :: c'))
    (ha : P a = true) (hn : ∀ q ∈ c', P q = false) : (c.filter fun a => !P a).Perm c' := by
  refine (hp.filter _).trans ?_
  rw [List.filter_cons_of_neg (by simp [ha]), filter_eq_self_of hn]

theorem any_eq_of_perm {α : Type} {P : α → Bool} {c c' : List α} (hp : c.Perm c') : c.any P = c'.any P := by
  rw [Bool.eq_iff_iff, List.any_eq_true, List.any_eq_true]
  simp [hp.mem_iff]

/-- a rearrangement of the images of some elements comes from a rearrangement of the elements -/
theorem perm_filterMap_inv {α β : Type} {f : α → Option β} {l : List β} {ps : List α} (h : l.Perm (ps.filterMap f)) :
    ∃ qs us, ps.Perm (qs ++ us) ∧ l = qs.filterMap f ∧ (∀ q ∈ qs, (f q).isSome = true) ∧ ∀ u ∈ us, f u = none := by
  induction l generalizing ps with
  | nil =>
    refine ⟨[], ps, .refl _, rfl, by simp, ?_⟩
    have := h.symm.eq_nil
    rw [List.filterMap_eq_nil_iff] at this
    exact this
  | cons x l ih =>
    obtain ⟨p, hp, hx⟩ := List.mem_filterMap.1 (h.mem_iff.1 List.mem_cons_self)
    obtain ⟨ps', hps⟩ := List.append_of_mem hp
    obtain ⟨ps'', rfl⟩ := hps
    have hperm : (ps' ++ p :: ps'').Perm (p :: (ps' ++ ps'')) := List.perm_middle
    have h2 := h.trans (hperm.filterMap f)
    rw [List.filterMap_cons_some hx] at h2
    obtain ⟨qs, us, h3, h4, h5, h6⟩ := ih h2.cons_inv
    refine ⟨p :: qs, us, hperm.trans (h3.cons p), ?_, ?_, h6⟩
    · rw [List.filterMap_cons_some hx, h4]
    · intro q hq
      rcases List.mem_cons.1 hq with rfl | hq
      · rw [hx]; rfl
      · exact h5 q hq

theorem all_eq_of_perm {α : Type} {P : α → Bool} {c c' : List α} (hp : c.Perm c') : c.all P = c'.all P := by
  rw [Bool.eq_iff_iff, List.all_eq_true, List.all_eq_true]
  simp [hp.mem_iff]

end Verif
