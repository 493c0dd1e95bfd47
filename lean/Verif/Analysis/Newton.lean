import Mathlib.Data.Real.Basic
import Mathlib.Tactic.Linarith
import Mathlib.Tactic.Positivity
import Mathlib.Tactic.NormNum
import Mathlib.Tactic.FieldSimp
import Mathlib.Tactic.Ring

/-!
# The perturbed Newton (Heron) iteration `t ↦ (t + 1/t + e)(1 + δ)/2` over the reals

`t` is the current iterate divided by the limit.  `u` is the unit roundoff.
-/

namespace Gcem.Newton

/-- One perturbed step. -/
noncomputable def step (t e δ : ℝ) : ℝ := (t + 1 / t + e) * (1 + δ) / 2

theorem step_lo {u t e δ : ℝ} (hu : 0 < u) (hu1 : u ≤ 1 / 16777216) (ht : 0 < t)
    (he : |e| ≤ 2.5 * u / t + u ^ 2) (hδ : |δ| ≤ u) : 1 - 3 * u ≤ step t e δ := by
  obtain ⟨e1, -⟩ := abs_le.1 he
  obtain ⟨d1, -⟩ := abs_le.1 hδ
  have hw : 0 < 1 - 1.26 * u := by linarith
  have h1 : 2 * (1 - 1.26 * u) ≤ t + (1 - 2.5 * u) / t := by
    rw [← sub_nonneg]
    have : t + (1 - 2.5 * u) / t - 2 * (1 - 1.26 * u)
        = ((t - (1 - 1.26 * u)) ^ 2 + ((1 - 2.5 * u) - (1 - 1.26 * u) ^ 2)) / t := by
      field_simp; ring
    rw [this]
    apply div_nonneg _ ht.le
    nlinarith [sq_nonneg (t - (1 - 1.26 * u))]
  have h2 : t + (1 - 2.5 * u) / t = t + 1 / t - 2.5 * u / t := by ring
  have h3 : 2 * (1 - 1.26 * u) - u ^ 2 ≤ t + 1 / t + e := by linarith
  unfold step
  have h4 : 0 < 2 * (1 - 1.26 * u) - u ^ 2 := by nlinarith
  have h5 : (2 * (1 - 1.26 * u) - u ^ 2) * (1 - u) ≤ (t + 1 / t + e) * (1 + δ) :=
    mul_le_mul h3 (by linarith) (by linarith) (by linarith)
  nlinarith

theorem inv_le_of {u t : ℝ} (hu : 0 < u) (hu1 : u ≤ 1 / 16777216) (ht : 1 - 3 * u ≤ t) :
    1 / t ≤ 1 + 3.01 * u := by
  have ht0 : 0 < t := by linarith
  rw [div_le_iff₀ ht0]
  nlinarith

theorem step_far {u t e δ : ℝ} (hu : 0 < u) (hu1 : u ≤ 1 / 16777216) (ht : 1 - 3 * u ≤ t)
    (he : |e| ≤ 2.5 * u / t + u ^ 2) (hδ : |δ| ≤ u) :
    step t e δ ≤ 0.5001 * t + 0.5001 := by
  obtain ⟨-, e2⟩ := abs_le.1 he
  obtain ⟨-, d2⟩ := abs_le.1 hδ
  have hi := inv_le_of hu hu1 ht
  have ht0 : 0 < t := by linarith
  have h1 : 2.5 * u / t = 2.5 * u * (1 / t) := by ring
  have hp : 0 < 1 / t := by positivity
  have h2 : 2.5 * u / t ≤ 3 * u := by rw [h1]; nlinarith
  have h3 : t + 1 / t + e ≤ t + 1 + 7 * u := by nlinarith
  have h4 : (t + 1 / t + e) * (1 + δ) ≤ (t + 1 + 7 * u) * (1 + u) := by
    have h5 : 0 ≤ 1 + δ := by have := (abs_le.1 hδ).1; linarith
    exact mul_le_mul h3 (by linarith) h5 (by linarith)
  unfold step
  nlinarith

theorem step_near {u t e δ E : ℝ} (hu : 0 < u) (hu1 : u ≤ 1 / 16777216) (ht : 1 - 3 * u ≤ t)
    (hE : 3 * u ≤ E) (hE1 : E ≤ 2) (ht2 : t ≤ 1 + E)
    (he : |e| ≤ 2.5 * u / t + u ^ 2) (hδ : |δ| ≤ u) :
    step t e δ ≤ 1 + 0.501 * E ^ 2 + 2.3 * u + u * E ^ 2 := by
  obtain ⟨-, e2⟩ := abs_le.1 he
  obtain ⟨d1, d2⟩ := abs_le.1 hδ
  have hi := inv_le_of hu hu1 ht
  have ht0 : 0 < t := by linarith
  have h1 : 2.5 * u / t = 2.5 * u * (1 / t) := by ring
  have hp : 0 < 1 / t := by positivity
  have h2 : 2.5 * u / t ≤ 2.51 * u := by rw [h1]; nlinarith
  have hsq : (t - 1) ^ 2 ≤ E ^ 2 := by
    apply sq_le_sq'
    · linarith
    · linarith
  have h3 : t + 1 / t = 2 + (t - 1) ^ 2 * (1 / t) := by field_simp; ring
  have h4 : (t - 1) ^ 2 * (1 / t) ≤ E ^ 2 * (1 + 3.01 * u) :=
    mul_le_mul hsq hi hp.le (sq_nonneg _)
  have h5 : t + 1 / t + e ≤ 2 + E ^ 2 * (1 + 3.01 * u) + 2.51 * u + u ^ 2 := by linarith
  have h6 : (t + 1 / t + e) * (1 + δ) ≤ (2 + E ^ 2 * (1 + 3.01 * u) + 2.51 * u + u ^ 2) * (1 + u) := by
    have h7 : 0 ≤ E ^ 2 := sq_nonneg _
    exact mul_le_mul h5 (by linarith) (by linarith) (by positivity)
  unfold step
  have h7 : 0 ≤ E ^ 2 := sq_nonneg _
  have h8 : E ^ 2 ≤ 4 := by nlinarith
  have h9 : E ^ 2 * u ≤ E ^ 2 * (1 / 16777216) := mul_le_mul_of_nonneg_left hu1 h7
  have h10 : u * u ≤ u * (1 / 16777216) := mul_le_mul_of_nonneg_left hu1 hu.le
  have h11 : E ^ 2 * u * u ≤ E ^ 2 * (1 / 16777216) * (1/16777216) := by
    have := mul_le_mul h9 hu1 hu.le (by positivity); linarith
  have h12 : u * u * u ≤ u * (1 / 16777216) := by nlinarith
  nlinarith

/-- The stopping test only accepts iterates within `3u` of the limit. -/
theorem stop_near {u t : ℝ} (hu : 0 < u) (hu1 : u ≤ 1 / 16777216) (ht : 0 < t)
    (h : |t - 1 / t| ≤ 2.5 * u / t + u ^ 2 + u ^ 2 * t) : |t - 1| ≤ 3 * u := by
  have h1 : t - 1 / t = (t ^ 2 - 1) / t := by field_simp
  rw [h1, abs_div, abs_of_pos ht, div_le_iff₀ ht] at h
  have h2 : (2.5 * u / t + u ^ 2 + u ^ 2 * t) * t = 2.5 * u + u ^ 2 * t + u ^ 2 * t ^ 2 := by
    field_simp
  rw [h2] at h
  obtain ⟨l, r⟩ := abs_le.1 h
  have hu2 : u ^ 2 ≤ u / 16777216 := by nlinarith
  have hu2p : 0 < u ^ 2 := by positivity
  have ht2 : t ≤ 2 := by
    by_contra hc; push Not at hc
    nlinarith
  rw [abs_le]
  constructor
  · nlinarith
  · nlinarith

/-- Upper bound on the iterate that guarantees convergence in `n` further steps. -/
noncomputable def bnd (u : ℝ) : ℕ → ℝ
  | 0 => 1 + 3 * u
  | 1 => 1 + 1e-12 + 3 * u
  | 2 => 1 + 1.4e-6 + 3 * u
  | 3 => 1 + 1.6e-3 + 3 * u
  | 4 => 1 + 0.056 + 3 * u
  | 5 => 1 + 0.33 + 3 * u
  | 6 => 1 + 0.8 + 3 * u
  | 7 => 1 + 1.25 + 3 * u
  | n + 8 => 1.0005 + 1.2 * (10000 / 5001) ^ (n + 1)

theorem bnd_step {u t e δ : ℝ} (n : ℕ) (hu : 0 < u) (hul : 1 / 2 ^ 64 ≤ u) (hu1 : u ≤ 1 / 16777216)
    (ht : 1 - 3 * u ≤ t) (ht2 : t ≤ bnd u (n + 1))
    (he : |e| ≤ 2.5 * u / t + u ^ 2) (hδ : |δ| ≤ u) : step t e δ ≤ bnd u n := by
  have near : ∀ a b : ℝ, 0 ≤ a → a ≤ 1.25 → t ≤ 1 + a + 3 * u →
      0.501 * (a + 3 * u) ^ 2 + u * (a + 3 * u) ^ 2 ≤ b + 0.7 * u → step t e δ ≤ 1 + b + 3 * u := by
    intro a b ha ha1 hta hb
    have := step_near (E := a + 3 * u) hu hu1 ht (by linarith) (by linarith) (by linarith) he hδ
    linarith
  have hu2 : u ^ 2 ≤ u / 16777216 := by nlinarith
  have hu2p : 0 < u ^ 2 := by positivity
  have hu3 : u ^ 3 ≤ u / 16777216 := by nlinarith
  match n, ht2 with
  | 0, h =>
    have := near 1e-12 0 (by norm_num) (by norm_num) h (by norm_num at hul ⊢; nlinarith)
    simpa [bnd] using this
  | 1, h => exact near _ _ (by norm_num) (by norm_num) h (by nlinarith)
  | 2, h => exact near _ _ (by norm_num) (by norm_num) h (by nlinarith)
  | 3, h => exact near _ _ (by norm_num) (by norm_num) h (by nlinarith)
  | 4, h => exact near _ _ (by norm_num) (by norm_num) h (by nlinarith)
  | 5, h => exact near _ _ (by norm_num) (by norm_num) h (by nlinarith)
  | 6, h => exact near _ _ (by norm_num) (by norm_num) h (by nlinarith)
  | 7, h =>
    have := step_far hu hu1 ht he hδ
    have h' : t ≤ 1.0005 + 1.2 * (10000 / 5001) ^ 1 := h
    change _ ≤ 1 + 1.25 + 3 * u
    norm_num at h' ⊢; nlinarith
  | n + 8, h =>
    have := step_far hu hu1 ht he hδ
    have h' : t ≤ 1.0005 + 1.2 * (10000 / 5001) ^ (n + 2) := h
    change _ ≤ 1.0005 + 1.2 * (10000 / 5001) ^ (n + 1)
    rw [pow_succ] at h'
    nlinarith

theorem bnd_99 {u : ℝ} : (2:ℝ) ^ 91 * 2.3 ≤ bnd u 99 := by
  change _ ≤ 1.0005 + 1.2 * (10000 / 5001 : ℝ) ^ 92
  norm_num

end Gcem.Newton
