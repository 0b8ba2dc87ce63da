import Mathlib.Data.Fintype.EquivFin
import Mathlib.Data.Nat.Prime.Basic
import Mathlib.Tactic.Ring
/-! The triangular numbers `0, 1, 3, 6, …` hit every residue modulo a power of two: the reason why the probe sequence
of the table visits every group. -/
namespace Verif.Swiss

/-- the `k`-th triangular number -/
def tri (k : Nat) : Nat := k * (k + 1) / 2

theorem two_tri (k : Nat) : 2 * tri k = k * (k + 1) := by
  have : 2 ∣ k * (k + 1) := (Nat.even_mul_succ_self k).two_dvd
  rw [tri]; omega

theorem tri_inj {r a b : Nat} (hab : a < b) (hb : b < 2 ^ r) : tri a % 2 ^ r ≠ tri b % 2 ^ r := by
  intro h
  have h1 : 2 ^ r ∣ tri b - tri a := Nat.dvd_of_mod_eq_zero (Nat.sub_mod_eq_zero_of_mod_eq h.symm)
  have h2 : 2 ^ (r + 1) ∣ (b - a) * (a + b + 1) := by
    have h3 : (b - a) * (a + b + 1) = 2 * (tri b - tri a) := by
      obtain ⟨d, rfl⟩ := Nat.exists_eq_add_of_lt hab
      rw [Nat.mul_sub, two_tri, two_tri]
      have : a + d + 1 - a = d + 1 := by omega
      rw [this]
      have : (a + d + 1) * (a + d + 1 + 1) = (d + 1) * (a + (a + d + 1) + 1) + a * (a + 1) := by ring
      omega
    rw [h3, pow_succ, Nat.mul_comm]
    exact Nat.mul_dvd_mul_left 2 h1
  have hr : (2 : Nat) ^ (r + 1) = 2 * 2 ^ r := by rw [pow_succ, Nat.mul_comm]
  rcases Nat.even_or_odd (b - a) with he | ho
  · have h3 : Nat.Coprime (2 ^ (r + 1)) (a + b + 1) := by
      refine Nat.Coprime.pow_left _ (Nat.coprime_two_left.2 ?_)
      obtain ⟨c, hc⟩ := he
      exact ⟨a + c, by omega⟩
    have h4 := Nat.le_of_dvd (by omega) (h3.dvd_of_dvd_mul_right h2)
    omega
  · have h3 : Nat.Coprime (2 ^ (r + 1)) (b - a) := Nat.Coprime.pow_left _ (Nat.coprime_two_left.2 ho)
    have h4 := Nat.le_of_dvd (by omega) (h3.dvd_of_dvd_mul_left h2)
    omega

theorem tri_surj (r : Nat) {j : Nat} (hj : j < 2 ^ r) : ∃ k, k < 2 ^ r ∧ tri k % 2 ^ r = j := by
  have hpos : 0 < 2 ^ r := Nat.pow_pos (by omega)
  let f : Fin (2 ^ r) → Fin (2 ^ r) := fun k => ⟨tri k % 2 ^ r, Nat.mod_lt _ hpos⟩
  have hf : Function.Injective f := by
    intro a b h
    have h : tri a % 2 ^ r = tri b % 2 ^ r := congrArg Fin.val h
    rcases Nat.lt_trichotomy a.1 b.1 with hlt | he | hlt
    · exact absurd h (tri_inj hlt b.2)
    · exact Fin.ext he
    · exact absurd h.symm (tri_inj hlt a.2)
  obtain ⟨k, hk⟩ := Finite.surjective_of_injective hf ⟨j, hj⟩
  exact ⟨k.1, k.2, congrArg Fin.val hk⟩

end Verif.Swiss
