/-! Rearranging the entries of a ledger. -/
namespace Verif
variable {α : Type}

/-- one step after another: `T₁`, `T₂` taken, `H₁`, `H₂` handed out, `G₁`, `G₂` dropped -/
theorem ledger_append {a b c T₁ T₂ H₁ H₂ G₁ G₂ : List α} (h₁ : (T₁ ++ a).Perm (b ++ H₁ ++ G₁)) (h₂ : (T₂ ++ b).Perm (c ++ H₂ ++ G₂)) :
    (T₁ ++ T₂ ++ a).Perm (c ++ (H₁ ++ H₂) ++ (G₁ ++ G₂)) := by
  classical
  rw [List.perm_iff_count] at *
  intro x
  have e₁ := h₁ x
  have e₂ := h₂ x
  simp only [List.count_append] at *
  omega

/-- two lists are the same up to order if every additive count agrees -/
theorem perm_of_measure {a b : List α} (h : ∀ (k : List α → Nat) (k1 : α → Nat), k [] = 0 → (∀ x l, k (x :: l) = k1 x + k l) →
    (∀ x y, k (x ++ y) = k x + k y) → (∀ x y, x.Perm y → k x = k y) → k a = k b) : a.Perm b := by
  classical
  rw [List.perm_iff_count]
  intro x
  refine h (List.count x) (fun y => if y == x then 1 else 0) rfl (fun y l => ?_) (fun y l => List.count_append) (fun y l hp => hp.count_eq _)
  rw [List.count_cons, Nat.add_comm]

end Verif
