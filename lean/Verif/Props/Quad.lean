import Verif.Model.Quad
import Verif.Fp.Round
import Mathlib.Analysis.SpecialFunctions.Integrals.Basic
import Mathlib.Algebra.Polynomial.Eval.Degree
import Mathlib.Algebra.Order.BigOperators.Group.Finset

/-!
# C62: the Gauss–Legendre tables integrate polynomials
-/

namespace Gcem.Props
open Gcem Polynomial

/-- the quadrature sum of a function for lists of nodes and weights -/
noncomputable def quadSum (ps ws : List ℚ) (g : ℝ → ℝ) : ℝ :=
  ((List.zip ps ws).map fun pw => (pw.2 : ℝ) * g pw.1).sum

private def quadMono (ps ws : List ℚ) (k : ℕ) : ℚ :=
  ((List.zip ps ws).map fun pw => pw.2 * pw.1 ^ k).sum

private def momentQ (k : ℕ) : ℚ := if k % 2 = 0 then 2 / (k + 1) else 0

private theorem list_sum_cast (l : List (ℚ × ℚ)) (k : ℕ) :
    (((l.map fun pw => pw.2 * pw.1 ^ k).sum : ℚ) : ℝ) = (l.map fun pw => (pw.2 : ℝ) * (pw.1 : ℝ) ^ k).sum := by
  induction l with
  | nil => simp
  | cons a l ih => simp only [List.map_cons, List.sum_cons, Rat.cast_add, ih]; push_cast; rfl

private theorem list_sum_poly (l : List (ℚ × ℚ)) (p : ℝ[X]) (n : ℕ) (hn : p.natDegree < n) :
    (l.map fun pw => (pw.2 : ℝ) * p.eval (pw.1 : ℝ)).sum
      = ∑ k ∈ Finset.range n, p.coeff k * (l.map fun pw => (pw.2 : ℝ) * (pw.1 : ℝ) ^ k).sum := by
  induction l with
  | nil => simp
  | cons a l ih =>
    simp only [List.map_cons, List.sum_cons, mul_add, Finset.sum_add_distrib, ih]
    congr 1
    rw [Polynomial.eval_eq_sum_range' hn, Finset.mul_sum]
    exact Finset.sum_congr rfl fun k _ => by ring

private theorem moment_eq (k : ℕ) : (∫ x in (-1:ℝ)..1, x ^ k) = (momentQ k : ℝ) := by
  rw [integral_pow, momentQ]
  rcases Nat.mod_two_eq_zero_or_one k with h | h
  · rw [if_pos h, (Nat.even_iff.2 h).add_one.neg_one_pow]; push_cast; ring
  · rw [if_neg (by omega), (Nat.odd_iff.2 h).add_one.neg_one_pow]; push_cast; simp

private theorem integral_poly (p : ℝ[X]) (n : ℕ) (hn : p.natDegree < n) :
    (∫ x in (-1:ℝ)..1, p.eval x) = ∑ k ∈ Finset.range n, p.coeff k * (momentQ k : ℝ) := by
  simp_rw [Polynomial.eval_eq_sum_range' hn]
  rw [intervalIntegral.integral_finsetSum fun k _ =>
    (Continuous.intervalIntegrable (by fun_prop) _ _)]
  exact Finset.sum_congr rfl fun k _ => by rw [intervalIntegral.integral_const_mul, moment_eq]

private theorem quad_of_moments (ps ws : List ℚ) (n : ℕ) (ε : ℚ)
    (h : ∀ k < n, |quadMono ps ws k - momentQ k| ≤ ε) (p : ℝ[X]) (hn : p.natDegree < n) :
    |quadSum ps ws (fun x => p.eval x) - ∫ x in (-1:ℝ)..1, p.eval x|
      ≤ ε * ∑ k ∈ Finset.range n, |p.coeff k| := by
  rw [quadSum, list_sum_poly _ _ _ hn, integral_poly _ _ hn, ← Finset.sum_sub_distrib, Finset.mul_sum]
  refine (Finset.abs_sum_le_sum_abs _ _).trans (Finset.sum_le_sum fun k hk => ?_)
  rw [← list_sum_cast, ← mul_sub, abs_mul, mul_comm]
  refine mul_le_mul_of_nonneg_right ?_ (abs_nonneg _)
  have := (Rat.cast_le (K := ℝ)).2 (h k (Finset.mem_range.1 hk))
  push_cast at this
  exact this

private theorem mom30 : ∀ k < 60, |quadMono gauss_legendre_30_points gauss_legendre_30_weights k - momentQ k|
    ≤ 21 / 10 ^ 33 := by decide +kernel
private theorem mom50 : ∀ k < 100, |quadMono gauss_legendre_50_points gauss_legendre_50_weights k - momentQ k|
    ≤ 10 / 10 ^ 33 := by decide +kernel
private theorem mom30r : ∀ k < 60, |quadMono (gauss_legendre_30_points.map (rnd x87))
    (gauss_legendre_30_weights.map (rnd x87)) k - momentQ k| ≤ 254 / 10 ^ 22 := by decide +kernel
private theorem mom50r : ∀ k < 100, |quadMono (gauss_legendre_50_points.map (rnd x87))
    (gauss_legendre_50_weights.map (rnd x87)) k - momentQ k| ≤ 344 / 10 ^ 22 := by decide +kernel

/-- C62: the printed tables integrate every polynomial of degree below 60 (respectively 100) over `[-1,1]`
with an error of at most `2.1e-32` (`1e-32`) times the sum of the magnitudes of its coefficients. -/
theorem C62_printed (p : ℝ[X]) :
    (p.natDegree < 60 → |quadSum gauss_legendre_30_points gauss_legendre_30_weights (fun x => p.eval x)
      - ∫ x in (-1:ℝ)..1, p.eval x| ≤ 21 / 10 ^ 33 * ∑ k ∈ Finset.range 60, |p.coeff k|) ∧
    (p.natDegree < 100 → |quadSum gauss_legendre_50_points gauss_legendre_50_weights (fun x => p.eval x)
      - ∫ x in (-1:ℝ)..1, p.eval x| ≤ 10 / 10 ^ 33 * ∑ k ∈ Finset.range 100, |p.coeff k|) := by
  refine ⟨fun h => ?_, fun h => ?_⟩
  · have := quad_of_moments _ _ _ _ mom30 p h; push_cast at this; exact this
  · have := quad_of_moments _ _ _ _ mom50 p h; push_cast at this; exact this

/-- C62: the same for the values actually stored, i.e. the literals rounded to `long double`: the error is at
most `2.54e-20` (`3.44e-20`) times the sum of the magnitudes of the coefficients. -/
theorem C62_stored (p : ℝ[X]) :
    (p.natDegree < 60 → |quadSum (gauss_legendre_30_points.map (rnd x87)) (gauss_legendre_30_weights.map (rnd x87))
      (fun x => p.eval x) - ∫ x in (-1:ℝ)..1, p.eval x| ≤ 254 / 10 ^ 22 * ∑ k ∈ Finset.range 60, |p.coeff k|) ∧
    (p.natDegree < 100 → |quadSum (gauss_legendre_50_points.map (rnd x87)) (gauss_legendre_50_weights.map (rnd x87))
      (fun x => p.eval x) - ∫ x in (-1:ℝ)..1, p.eval x| ≤ 344 / 10 ^ 22 * ∑ k ∈ Finset.range 100, |p.coeff k|) := by
  refine ⟨fun h => ?_, fun h => ?_⟩
  · have := quad_of_moments _ _ _ _ mom30r p h; push_cast at this; exact this
  · have := quad_of_moments _ _ _ _ mom50r p h; push_cast at this; exact this

/-- C62: every node lies strictly inside `(-1,1)`, every weight is positive, nodes come in pairs `-x, x` with the
same weight, for the printed values; the nodes are pairwise distinct. -/
theorem C62_shape :
    (gauss_legendre_30_points.length = 30 ∧ gauss_legendre_30_weights.length = 30 ∧
     gauss_legendre_50_points.length = 50 ∧ gauss_legendre_50_weights.length = 50) ∧
    (∀ x ∈ gauss_legendre_30_points ++ gauss_legendre_50_points, -1 < x ∧ x < 1) ∧
    (∀ w ∈ gauss_legendre_30_weights ++ gauss_legendre_50_weights, 0 < w) ∧
    (∀ j : ℕ, j < 15 → gauss_legendre_30_points[2 * j]? = (gauss_legendre_30_points[2 * j + 1]?).map (-·) ∧
      gauss_legendre_30_weights[2 * j]? = gauss_legendre_30_weights[2 * j + 1]?) ∧
    (∀ j : ℕ, j < 25 → gauss_legendre_50_points[2 * j]? = (gauss_legendre_50_points[2 * j + 1]?).map (-·) ∧
      gauss_legendre_50_weights[2 * j]? = gauss_legendre_50_weights[2 * j + 1]?) ∧
    gauss_legendre_30_points.Nodup ∧ gauss_legendre_50_points.Nodup := by
  refine ⟨by decide +kernel, by decide +kernel, by decide +kernel, by decide +kernel, by decide +kernel,
    by decide +kernel, by decide +kernel⟩

/-- the theorem applies, e.g., to `x^58`, whose integral is `2/59` -/
example : |quadSum gauss_legendre_30_points gauss_legendre_30_weights (fun x => x ^ 58) - 2 / 59| ≤ 21 / 10 ^ 33 := by
  have h := (C62_printed (X ^ 58 : ℝ[X])).1 (by simp)
  have hs : ∑ k ∈ Finset.range 60, |(X ^ 58 : ℝ[X]).coeff k| = 1 := by
    simp only [coeff_X_pow]
    rw [Finset.sum_eq_single 58] <;> simp +contextual
  simp only [eval_pow, eval_X, hs, mul_one] at h
  rw [integral_pow] at h
  norm_num at h ⊢
  exact h

end Gcem.Props
