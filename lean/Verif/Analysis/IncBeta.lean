import Mathlib.Analysis.SpecialFunctions.Integrals.Basic
import Mathlib.Analysis.SpecialFunctions.Pow.Deriv
import Mathlib.MeasureTheory.Integral.IntervalIntegral.FundThmCalculus
import Mathlib.Tactic.LinearCombination

/-!
# The continued fraction of the incomplete beta function

With `J z n x y = ∫₀ᶻ (z-t)^n t^x (1-t)^y dt` integration by parts gives three-term recurrences, so quotients of such
integrals are the tails of the continued fraction with the coefficients `al`.
-/

namespace Gcem.IB
open Real intervalIntegral MeasureTheory

noncomputable def J (z : ℝ) (n : ℕ) (x y : ℝ) : ℝ := ∫ t in (0:ℝ)..z, (z - t) ^ n * (1 - t) ^ y * t ^ x

variable {z : ℝ}

theorem cont (hz1 : z < 1) (n : ℕ) (y : ℝ) : ContinuousOn (fun t : ℝ => (z - t) ^ n * (1 - t) ^ y) (Set.Icc 0 z) := by
  refine ContinuousOn.mul (by fun_prop) ?_
  refine ContinuousOn.rpow_const (by fun_prop) fun t ht => Or.inl ?_
  have := ht.2; linarith

theorem jint (hz0 : 0 ≤ z) (hz1 : z < 1) (n : ℕ) {x : ℝ} (hx : -1 < x) (y : ℝ) :
    IntervalIntegrable (fun t : ℝ => (z - t) ^ n * (1 - t) ^ y * t ^ x) volume 0 z := by
  refine (intervalIntegrable_rpow' hx).continuousOn_mul ?_
  rw [Set.uIcc_of_le hz0]; exact cont hz1 n y

theorem J_pos (hz0 : 0 < z) (hz1 : z < 1) (n : ℕ) {x : ℝ} (hx : -1 < x) (y : ℝ) : 0 < J z n x y := by
  refine intervalIntegral_pos_of_pos_on (jint hz0.le hz1 n hx y) (fun t ht => ?_) hz0
  have h1 : 0 < z - t := by linarith [ht.2]
  have h2 : 0 < 1 - t := by linarith [ht.2]
  have h3 : 0 < t := ht.1
  positivity

theorem J_split (hz0 : 0 ≤ z) (hz1 : z < 1) (n : ℕ) {x : ℝ} (hx : -1 < x) (y : ℝ) : J z (n + 1) x y = z * J z n x y - J z n (x + 1) y := by
  unfold J
  rw [← intervalIntegral.integral_const_mul, ← intervalIntegral.integral_sub ((jint hz0 hz1 n hx y).const_mul z) (jint hz0 hz1 n (by linarith) y)]
  refine intervalIntegral.integral_congr_ae (Filter.Eventually.of_forall fun t ht => ?_)
  rw [Set.uIoc_of_le hz0] at ht
  rw [rpow_add_one ht.1.ne', pow_succ]; ring

theorem J_up (hz0 : 0 ≤ z) (hz1 : z < 1) (n : ℕ) {x : ℝ} (hx : -1 < x) (y : ℝ) : J z n x (y + 1) = J z n x y - J z n (x + 1) y := by
  unfold J
  rw [← intervalIntegral.integral_sub (jint hz0 hz1 n hx y) (jint hz0 hz1 n (by linarith) y)]
  refine intervalIntegral.integral_congr_ae (Filter.Eventually.of_forall fun t ht => ?_)
  rw [Set.uIoc_of_le hz0] at ht
  have : 0 < 1 - t := by linarith [ht.2]
  rw [rpow_add_one ht.1.ne', rpow_add_one this.ne']; ring

theorem J_parts (hz0 : 0 ≤ z) (hz1 : z < 1) (n : ℕ) {x : ℝ} (hx : 0 < x) (y : ℝ) :
    x * J z n (x - 1) y - y * J z n x (y - 1) - n * J z (n - 1) x y = (0:ℝ) ^ n * (1 - z) ^ y * z ^ x := by
  have hd : ∀ t ∈ Set.Ioo 0 z, HasDerivAt (fun t : ℝ => (z - t) ^ n * (1 - t) ^ y * t ^ x)
      (x * ((z - t) ^ n * (1 - t) ^ y * t ^ (x - 1)) - y * ((z - t) ^ n * (1 - t) ^ (y - 1) * t ^ x) - n * ((z - t) ^ (n - 1) * (1 - t) ^ y * t ^ x)) t := by
    intro t ht
    have h1 : 0 < 1 - t := by linarith [ht.2]
    have d1 : HasDerivAt (fun t : ℝ => (z - t) ^ n) (n * (z - t) ^ (n - 1) * (-1)) t :=
      HasDerivAt.pow ((hasDerivAt_id t).const_sub z) n
    have d2 : HasDerivAt (fun t : ℝ => (1 - t) ^ y) ((-1) * y * (1 - t) ^ (y - 1)) t :=
      HasDerivAt.rpow_const ((hasDerivAt_id t).const_sub 1) (Or.inl h1.ne')
    have d3 : HasDerivAt (fun t : ℝ => t ^ x) (x * t ^ (x - 1)) t := hasDerivAt_rpow_const (Or.inl ht.1.ne')
    refine ((d1.mul d2).mul d3).congr_deriv ?_
    simp only [Pi.mul_apply]
    ring
  have hc : ContinuousOn (fun t : ℝ => (z - t) ^ n * (1 - t) ^ y * t ^ x) (Set.Icc 0 z) := by
    refine (cont hz1 n y).mul ?_
    exact continuousOn_id.rpow_const fun t _ => Or.inr hx.le
  have i1 := (jint hz0 hz1 n (x := x - 1) (by linarith) y).const_mul x
  have i2 := (jint hz0 hz1 n (x := x) (by linarith) (y - 1)).const_mul y
  have i3 := (jint hz0 hz1 (n - 1) (x := x) (by linarith) y).const_mul n
  have h := integral_eq_sub_of_hasDerivAt_of_le hz0 hc hd ((i1.sub i2).sub i3)
  rw [intervalIntegral.integral_sub (i1.sub i2) i3, intervalIntegral.integral_sub i1 i2, intervalIntegral.integral_const_mul,
    intervalIntegral.integral_const_mul, intervalIntegral.integral_const_mul] at h
  unfold J
  rw [h, sub_self, zero_rpow hx.ne']
  ring

/-- the coefficients of the continued fraction -/
noncomputable def al (a b z : ℝ) (j : ℕ) : ℝ :=
  if j % 2 = 0 then -(z * (a + (j / 2 : ℕ)) * (a + b + (j / 2 : ℕ)) / ((a + 2 * (j / 2 : ℕ)) * (a + 2 * (j / 2 : ℕ) + 1)))
  else z * ((j + 1) / 2 : ℕ) * (b - ((j + 1) / 2 : ℕ)) / ((a + 2 * ((j + 1) / 2 : ℕ) - 1) * (a + 2 * ((j + 1) / 2 : ℕ)))

theorem al_even (a b z : ℝ) (k : ℕ) : al a b z (2 * k) = -(z * (a + k) * (a + b + k) / ((a + 2 * k) * (a + 2 * k + 1))) := by
  unfold al
  rw [if_pos (by omega), show 2 * k / 2 = k by omega]

theorem al_odd (a b z : ℝ) (k : ℕ) : al a b z (2 * k + 1) = z * (k + 1) * (b - (k + 1)) / ((a + 2 * (k + 1) - 1) * (a + 2 * (k + 1))) := by
  unfold al
  rw [if_neg (by omega), show (2 * k + 1 + 1) / 2 = k + 1 by omega]
  push_cast; rfl

noncomputable def qI (a b z : ℝ) (m : ℕ) : ℝ := J z m (a + m - 1) (b - m - 1)
noncomputable def pI (a b z : ℝ) (m : ℕ) : ℝ := J z m (a + m) (b - m - 1)

variable {a b : ℝ}

theorem qI_pos (ha : 0 < a) (hz0 : 0 < z) (hz1 : z < 1) (m : ℕ) : 0 < qI a b z m :=
  J_pos hz0 hz1 m (by have : (0:ℝ) ≤ m := Nat.cast_nonneg m; linarith) _

theorem pI_pos (ha : 0 < a) (hz0 : 0 < z) (hz1 : z < 1) (m : ℕ) : 0 < pI a b z m :=
  J_pos hz0 hz1 m (by have : (0:ℝ) ≤ m := Nat.cast_nonneg m; linarith) _

theorem rel_zero (ha : 0 < a) (hz0 : 0 < z) (hz1 : z < 1) :
    a * qI a b z 0 = z ^ a * (1 - z) ^ b + (a + b) * pI a b z 0 := by
  have h1 := J_parts hz0.le hz1 0 ha b
  have h2 := J_up hz0.le hz1 0 (x := a - 1) (by linarith) (b - 1)
  unfold qI pI
  simp only [Nat.cast_zero, add_zero, sub_zero, pow_zero, zero_mul, one_mul, sub_add_cancel] at h1 h2 ⊢
  rw [h2] at h1
  linear_combination h1

theorem rel_even (ha : 0 < a) (hz0 : 0 < z) (hz1 : z < 1) (m : ℕ) :
    (m + 1) * z * pI a b z m - (a + 2 * (m + 1)) * qI a b z (m + 1) = -((a + b + (m + 1)) * pI a b z (m + 1)) := by
  have hm : (0:ℝ) ≤ m := Nat.cast_nonneg m
  have h1 := J_parts hz0.le hz1 (m + 1) (x := a + (m + 1)) (by linarith) (b - (m + 1))
  have h2 := J_split hz0.le hz1 m (x := a + m) (by linarith) (b - (m + 1))
  have h3 := J_up hz0.le hz1 (m + 1) (x := a + m) (by linarith) (b - (m + 1) - 1)
  unfold qI pI
  push_cast
  rw [zero_pow (by omega), zero_mul, zero_mul, Nat.add_sub_cancel] at h1
  push_cast at h1
  rw [show a + ((m:ℝ) + 1) - 1 = a + m by ring] at h1 ⊢
  rw [show a + ((m:ℝ) + 1) = a + m + 1 by ring] at h1 ⊢
  rw [sub_add_cancel] at h3
  rw [show b - (m:ℝ) - 1 = b - (m + 1) by ring]
  linear_combination -h1 - (m + 1) * h2 + (a + 2 * (m + 1)) * h3

theorem rel_odd (ha : 0 < a) (hz0 : 0 < z) (hz1 : z < 1) (m : ℕ) :
    (a + m) * z * qI a b z m - (a + 2 * m + 1) * pI a b z m = (b - (m + 1)) * qI a b z (m + 1) := by
  have hm : (0:ℝ) ≤ m := Nat.cast_nonneg m
  have h1 := J_parts hz0.le hz1 (m + 1) (x := a + m) (by linarith) (b - (m + 1))
  have h2 := J_split hz0.le hz1 m (x := a + m - 1) (by linarith) (b - (m + 1))
  unfold qI pI
  push_cast
  rw [zero_pow (by omega), zero_mul, zero_mul, Nat.add_sub_cancel] at h1
  push_cast at h1
  rw [sub_add_cancel] at h2
  rw [show a + ((m:ℝ) + 1) - 1 = a + m by ring]
  rw [show b - (m:ℝ) - 1 = b - (m + 1) by ring]
  linear_combination h1 - (a + m) * h2

/-- the tails of the continued fraction -/
noncomputable def W (a b z : ℝ) (j : ℕ) : ℝ :=
  if j = 0 then z ^ a * (1 - z) ^ b / (a * qI a b z 0)
  else if j % 2 = 0 then (j / 2 : ℕ) * z * pI a b z (j / 2 - 1) / ((a + 2 * (j / 2 : ℕ)) * qI a b z (j / 2))
  else (a + (j / 2 : ℕ)) * z * qI a b z (j / 2) / ((a + 2 * (j / 2 : ℕ) + 1) * pI a b z (j / 2))

theorem W_even (a b z : ℝ) (m : ℕ) : W a b z (2 * m + 2) = (m + 1) * z * pI a b z m / ((a + 2 * (m + 1)) * qI a b z (m + 1)) := by
  unfold W
  rw [if_neg (by omega), if_pos (by omega), show (2 * m + 2) / 2 = m + 1 by omega, Nat.add_sub_cancel]
  push_cast; rfl

theorem W_odd (a b z : ℝ) (m : ℕ) : W a b z (2 * m + 1) = (a + m) * z * qI a b z m / ((a + 2 * m + 1) * pI a b z m) := by
  unfold W
  rw [if_neg (by omega), if_neg (by omega), show (2 * m + 1) / 2 = m by omega]

theorem W_pos (ha : 0 < a) (hz0 : 0 < z) (hz1 : z < 1) (j : ℕ) : 0 < W a b z j := by
  have h1 : 0 < 1 - z := by linarith
  have hq := fun m => qI_pos (b := b) ha hz0 hz1 m
  have hp := fun m => pI_pos (b := b) ha hz0 hz1 m
  rcases Nat.even_or_odd' j with ⟨k, rfl | rfl⟩
  · rcases k with _ | k
    · have := hq 0
      unfold W
      simp only [mul_zero, if_true]
      positivity
    · have := hq (k + 1)
      have := hp k
      rw [show 2 * (k + 1) = 2 * k + 2 by ring, W_even]; positivity
  · have := hq k
    have := hp k
    rw [W_odd]; positivity

theorem W_rec (ha : 0 < a) (hz0 : 0 < z) (hz1 : z < 1) (j : ℕ) : W a b z j = 1 + al a b z j / W a b z (j + 1) := by
  have hq := fun m => qI_pos (b := b) ha hz0 hz1 m
  have hp := fun m => pI_pos (b := b) ha hz0 hz1 m
  rcases Nat.even_or_odd' j with ⟨k, rfl | rfl⟩
  · rcases k with _ | k
    · rw [al_even, W_odd]
      unfold W
      have h := rel_zero (b := b) ha hz0 hz1
      have h1 := hq 0
      have h2 := hp 0
      simp only [mul_zero, if_true, Nat.cast_zero, add_zero]
      rw [show z ^ a * (1 - z) ^ b = a * qI a b z 0 - (a + b) * pI a b z 0 by linarith]
      field_simp
      ring
    · have h := rel_even (b := b) ha hz0 hz1 k
      have h1 := hq (k + 1)
      have h2 := hp (k + 1)
      have h3 : (0:ℝ) ≤ k := Nat.cast_nonneg k
      rw [al_even, W_odd, show 2 * (k + 1) = 2 * k + 2 by ring, W_even]
      push_cast
      have h4 : 0 < a + (k + 1) := by linarith
      have h5 : 0 < a + 2 * (k + 1) := by linarith
      have h6 : 0 < a + 2 * (k + 1) + 1 := by linarith
      rw [div_eq_iff (by positivity)]
      have e : -(z * (a + (k + 1)) * (a + b + (k + 1)) / ((a + 2 * (k + 1)) * (a + 2 * (k + 1) + 1))) /
          ((a + (k + 1)) * z * qI a b z (k + 1) / ((a + 2 * (k + 1) + 1) * pI a b z (k + 1))) =
          -((a + b + (k + 1)) * pI a b z (k + 1)) / ((a + 2 * (k + 1)) * qI a b z (k + 1)) := by
        field_simp
      rw [e, ← h]
      field_simp
      ring
  · have h := rel_odd (b := b) ha hz0 hz1 k
    have h1 := hq (k + 1)
    have h2 := hp k
    have h3 : (0:ℝ) ≤ k := Nat.cast_nonneg k
    rw [al_odd, W_odd, show 2 * k + 1 + 1 = 2 * k + 2 by ring, W_even]
    have h4 : 0 < a + 2 * k + 1 := by linarith
    have h5 : 0 < a + 2 * (k + 1) := by linarith
    have h6 : 0 < a + 2 * ((k:ℝ) + 1) - 1 := by linarith
    have e : z * (k + 1) * (b - (k + 1)) / ((a + 2 * (k + 1) - 1) * (a + 2 * (k + 1))) /
        ((k + 1) * z * pI a b z k / ((a + 2 * (k + 1)) * qI a b z (k + 1))) =
        (b - (k + 1)) * qI a b z (k + 1) / ((a + 2 * k + 1) * pI a b z k) := by
      rw [show a + 2 * ((k:ℝ) + 1) - 1 = a + 2 * k + 1 by ring]
      field_simp
    rw [e, ← h]
    field_simp
    ring

theorem W_even_ge (ha : 0 < a) (hz0 : 0 < z) (hz1 : z < 1) (m : ℕ) : (m + 1) / (a + 2 * (m + 1)) ≤ W a b z (2 * m + 2) := by
  have hm : (0:ℝ) ≤ m := Nat.cast_nonneg m
  have hq := qI_pos (b := b) ha hz0 hz1 (m + 1)
  have key : qI a b z (m + 1) ≤ z * pI a b z m := by
    unfold qI pI J
    rw [← intervalIntegral.integral_const_mul]
    refine integral_mono_on_of_le_Ioo hz0.le (jint hz0.le hz1 _ (by push_cast; linarith) _) ((jint hz0.le hz1 _ (by linarith) _).const_mul z) fun t ht => ?_
    have h1 : 0 < 1 - t := by linarith [ht.2]
    have h2 : 0 < z - t := by linarith [ht.2]
    push_cast
    rw [show a + ((m:ℝ) + 1) - 1 = a + m by ring, show b - (m:ℝ) - 1 = b - (m + 1) - 1 + 1 by ring, rpow_add_one h1.ne', pow_succ]
    have h3 : 0 < (z - t) ^ m * (1 - t) ^ (b - (m + 1) - 1) * t ^ (a + m) := by
      have := ht.1
      positivity
    have h4 : z - t ≤ z * (1 - t) := by nlinarith [ht.1]
    nlinarith [mul_le_mul_of_nonneg_left h4 h3.le]
  rw [W_even, div_le_div_iff₀ (by linarith) (by positivity)]
  have := mul_le_mul_of_nonneg_left key (show 0 ≤ (m + 1) * (a + 2 * ((m:ℝ) + 1)) by positivity)
  linarith

theorem W_odd_ge (ha : 0 < a) (hz0 : 0 < z) (hz1 : z < 1) (m : ℕ) : (a + m) / (a + 2 * m + 1) ≤ W a b z (2 * m + 1) := by
  have hm : (0:ℝ) ≤ m := Nat.cast_nonneg m
  have hp := pI_pos (b := b) ha hz0 hz1 m
  have key : pI a b z m ≤ z * qI a b z m := by
    unfold qI pI J
    rw [← intervalIntegral.integral_const_mul]
    refine integral_mono_on_of_le_Ioo hz0.le (jint hz0.le hz1 _ (by linarith) _) ((jint hz0.le hz1 _ (by linarith) _).const_mul z) fun t ht => ?_
    have h1 : 0 < 1 - t := by linarith [ht.2]
    have h2 : 0 < z - t := by linarith [ht.2]
    have h0 := ht.1
    rw [show a + (m:ℝ) = a + m - 1 + 1 by ring, rpow_add_one h0.ne', show a + (m:ℝ) - 1 + 1 - 1 = a + m - 1 by ring]
    have h3 : 0 < (z - t) ^ m * (1 - t) ^ (b - m - 1) * t ^ (a + m - 1) := by positivity
    nlinarith [mul_le_mul_of_nonneg_left ht.2.le h3.le]
  rw [W_odd, div_le_div_iff₀ (by linarith) (by positivity)]
  have := mul_le_mul_of_nonneg_left key (show 0 ≤ (a + m) * (a + 2 * (m:ℝ) + 1) by positivity)
  linarith

/-- the incomplete beta integral from the first tail -/
theorem W_zero (ha : 0 < a) (hz0 : 0 < z) (hz1 : z < 1) :
    ∫ t in (0:ℝ)..z, t ^ (a - 1) * (1 - t) ^ (b - 1) = z ^ a * (1 - z) ^ b / a * (1 / W a b z 0) := by
  have h1 := qI_pos (b := b) ha hz0 hz1 0
  have e : ∫ t in (0:ℝ)..z, t ^ (a - 1) * (1 - t) ^ (b - 1) = qI a b z 0 := by
    unfold qI J
    simp only [pow_zero, one_mul, Nat.cast_zero, add_zero, sub_zero, mul_comm]
  have h2 : 0 < (1 - z) := by linarith
  rw [e]
  unfold W
  rw [if_pos rfl]
  field_simp

end Gcem.IB
