import Verif.Analysis.TanReal

/-!
# Perturbation of the arctangent
-/

namespace Gcem
open Real

theorem arctan_sub_le {a b : ℝ} (ha : 0 < a) (hb : 0 < b) : |arctan a - arctan b| ≤ |a - b| / (1 + a * b) := by
  have hab : 0 < a * b := mul_pos ha hb
  have h := arctan_add (x := a) (y := -b) (by linarith)
  rw [arctan_neg, ← sub_eq_add_neg, ← sub_eq_add_neg] at h
  rw [h]
  refine (abs_arctan_le _).trans (le_of_eq ?_)
  rw [abs_div, mul_neg, sub_neg_eq_add, abs_of_pos (show 0 < 1 + a * b by linarith)]

theorem div_one_add_sq_le_arctan {t : ℝ} (ht : 0 < t) : t / (1 + t ^ 2) ≤ arctan t := by
  have h0 : 0 < arctan t := arctan_pos.2 ht
  have h := sin_le (x := 2 * arctan t) (by linarith)
  rw [sin_two_mul, sin_arctan, cos_arctan] at h
  have hs : √(1 + t ^ 2) * √(1 + t ^ 2) = 1 + t ^ 2 := mul_self_sqrt (by positivity)
  have hp : 0 < √(1 + t ^ 2) := sqrt_pos.2 (by positivity)
  have e : 2 * (t / √(1 + t ^ 2)) * (1 / √(1 + t ^ 2)) = 2 * (t / (1 + t ^ 2)) := by
    rw [mul_assoc, div_mul_div_comm, mul_one, hs]
  rw [e] at h; linarith

/-- relative perturbation of the argument -/
theorem arctan_scale {t δ k : ℝ} (ht : 0 < t) (hδ : |δ| ≤ k) (hk : k ≤ 1 / 2) :
    |arctan (t * (1 + δ)) - arctan t| ≤ k / (1 - k) * arctan t := by
  obtain ⟨h1, h2⟩ := abs_le.1 hδ
  have hk0 : 0 ≤ k := (abs_nonneg _).trans hδ
  have hp : 0 < 1 + δ := by linarith
  refine (arctan_sub_le (mul_pos ht hp) ht).trans ?_
  have e : t * (1 + δ) - t = t * δ := by ring
  rw [e, abs_mul, abs_of_pos ht]
  have h3 := div_one_add_sq_le_arctan ht
  have h4 : k / (1 - k) * (t / (1 + t ^ 2)) ≤ k / (1 - k) * arctan t :=
    mul_le_mul_of_nonneg_left h3 (div_nonneg hk0 (by linarith))
  refine le_trans ?_ h4
  rw [div_mul_div_comm, div_le_div_iff₀ (by positivity) (mul_pos (by linarith) (by positivity))]
  have h5 : (1 - k) * (1 + t ^ 2) ≤ 1 + t * (1 + δ) * t := by nlinarith [sq_nonneg t]
  have h6 : t * |δ| ≤ k * t := by nlinarith
  have h7 : 0 ≤ (1 - k) * (1 + t ^ 2) := mul_nonneg (by linarith) (by positivity)
  exact mul_le_mul h6 h5 h7 (by positivity)

/-- replacing a leg of a right triangle -/
theorem arctan_leg {x c c' : ℝ} (hx : 0 < x) (hc : 0 < c) (hc' : 0 < c') :
    |arctan (x / c') - arctan (x / c)| ≤ x * |c - c'| / (c * c' + x ^ 2) ∧
    |arctan (c' / x) - arctan (c / x)| ≤ x * |c - c'| / (c * c' + x ^ 2) := by
  constructor
  · refine (arctan_sub_le (by positivity) (by positivity)).trans (le_of_eq ?_)
    have e : x / c' - x / c = x * (c - c') / (c * c') := by field_simp
    rw [e, abs_div, abs_mul, abs_of_pos hx, abs_of_pos (mul_pos hc hc')]
    field_simp
  · refine (arctan_sub_le (by positivity) (by positivity)).trans (le_of_eq ?_)
    have e : c' / x - c / x = -(c - c') / x := by ring
    rw [e, abs_div, abs_neg, abs_of_pos hx]
    field_simp
    ring

/-- the whole chain: leg error, quotient error, arctangent error -/
theorem arctan_chain {Q φ D κ A T r : ℝ} (hQ : 0 ≤ Q) (h1 : |Q - φ| ≤ D) (h2 : |T - Q| ≤ κ * Q) (h3 : |r - T| ≤ A * |T|)
    (hκ0 : 0 ≤ κ) (hA0 : 0 ≤ A) :
    |r - φ| ≤ (A * (1 + κ) + κ) * φ + (1 + A * (1 + κ) + κ) * D := by
  have hT : |T| ≤ (1 + κ) * Q := by
    have := abs_sub_abs_le_abs_sub T Q; rw [abs_of_nonneg hQ] at this; linarith
  have hQ' : Q ≤ φ + D := by linarith [(abs_le.1 h1).2]
  have h4 : A * |T| ≤ A * ((1 + κ) * Q) := mul_le_mul_of_nonneg_left hT hA0
  have h5 : (A * (1 + κ) + κ) * Q ≤ (A * (1 + κ) + κ) * (φ + D) := mul_le_mul_of_nonneg_left hQ' (by positivity)
  have h6 : r - φ = (r - T) + (T - Q) + (Q - φ) := by ring
  rw [h6]
  refine (abs_add_three _ _ _).trans ?_
  linarith

end Gcem
