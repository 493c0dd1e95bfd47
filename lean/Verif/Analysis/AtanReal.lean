import Verif.Analysis.LogReal
import Mathlib.Analysis.SpecialFunctions.Trigonometric.ArctanDeriv

/-!
# The continued fraction of the arctangent

`cfT sqC (-s) m d` is the exact value of the loop of atan.hpp:123-136, `s = x^2`.  Two consecutive truncations
enclose the arctangent, and their relative distance is increasing in `s`, so that one rational number bounds
the truncation error on a whole interval.
-/

namespace Gcem
open Real

section
variable {K : Type*} [Field K] [LinearOrder K] [IsStrictOrderedRing K]

theorem atanT_ge (s : K) (h0 : 0 ≤ s) : ∀ m d : ℕ, 1 ≤ d → 2 * (d:K) - 1 ≤ cfT sqC (-s) m d
  | 0, d, _ => le_rfl
  | m + 1, d, hd => by
    have hd' : (1:K) ≤ d := by exact_mod_cast hd
    have ih := atanT_ge s h0 m (d + 1) (by omega)
    push_cast at ih
    have p' : 0 < cfT sqC (-s) m (d + 1) := by linarith
    have : 0 ≤ sqC d * s / cfT sqC (-s) m (d + 1) := div_nonneg (mul_nonneg (by simp [sqC]) h0) p'.le
    simp only [cfT, mul_neg, neg_div]; linarith

theorem atanT_pos (s : K) (h0 : 0 ≤ s) (m d : ℕ) (hd : 1 ≤ d) : 0 < cfT sqC (-s) m d := by
  have := atanT_ge s h0 m d hd
  have : (1:K) ≤ d := by exact_mod_cast hd
  linarith

theorem atanT_le (s : K) (h0 : 0 ≤ s) (m d : ℕ) (hd : 1 ≤ d) :
    cfT sqC (-s) m d ≤ (2 * d - 1) * (1 + s / 3) := by
  have hd' : (1:K) ≤ d := by exact_mod_cast hd
  cases m with
  | zero =>
    simp only [cfT]
    have : 0 ≤ (2 * (d:K) - 1) * (s / 3) := mul_nonneg (by linarith) (by linarith)
    linarith
  | succ m =>
    have ih := atanT_ge s h0 m (d + 1) (by omega)
    push_cast at ih
    have p' : 0 < cfT sqC (-s) m (d + 1) := by linarith
    have : sqC d * s / cfT sqC (-s) m (d + 1) ≤ (2 * d - 1) * (s / 3) := by
      rw [div_le_iff₀ p']
      have a : (2 * (d:K) - 1) * (s / 3) * (2 * (d + 1) - 1) ≤ (2 * d - 1) * (s / 3) * cfT sqC (-s) m (d + 1) :=
        mul_le_mul_of_nonneg_left ih (mul_nonneg (by linarith) (by linarith))
      have b : (sqC d : K) * s ≤ ((2 * (d:K) - 1) * (2 * (d + 1) - 1) / 3) * s :=
        mul_le_mul_of_nonneg_right (by simp only [sqC]; nlinarith) h0
      linarith
    simp only [cfT, mul_neg, neg_div]; linarith

/-- monotone in `s`, and `s / T` is monotone too -/
theorem atanT_mono {s X : K} (h0 : 0 ≤ s) (h1 : s ≤ X) : ∀ m d : ℕ, 1 ≤ d →
    cfT sqC (-s) m d ≤ cfT sqC (-X) m d ∧ s * cfT sqC (-X) m d ≤ X * cfT sqC (-s) m d
  | 0, d, hd => by
    have hd' : (1:K) ≤ d := by exact_mod_cast hd
    exact ⟨le_rfl, mul_le_mul_of_nonneg_right h1 (by simp only [cfT]; linarith)⟩
  | m + 1, d, hd => by
    have hd' : (1:K) ≤ d := by exact_mod_cast hd
    obtain ⟨i1, i2⟩ := atanT_mono h0 h1 m (d + 1) (by omega)
    have p := atanT_pos s h0 m (d + 1) (by omega)
    have q := atanT_pos X (h0.trans h1) m (d + 1) (by omega)
    have hc : (0:K) ≤ sqC d := by simp [sqC]
    have a : s / cfT sqC (-s) m (d + 1) ≤ X / cfT sqC (-X) m (d + 1) := by
      rw [div_le_div_iff₀ p q]; exact i2
    have b : 1 / cfT sqC (-X) m (d + 1) ≤ 1 / cfT sqC (-s) m (d + 1) := one_div_le_one_div_of_le p i1
    have e1 : cfT sqC (-s) (m + 1) d = 2 * d - 1 + sqC d * (s / cfT sqC (-s) m (d + 1)) := by
      simp only [cfT]; ring
    have e2 : cfT sqC (-X) (m + 1) d = 2 * d - 1 + sqC d * (X / cfT sqC (-X) m (d + 1)) := by
      simp only [cfT]; ring
    rw [e1, e2]
    refine ⟨by linarith [mul_le_mul_of_nonneg_left a hc], ?_⟩
    have c1 : s * (2 * d - 1) ≤ X * (2 * (d:K) - 1) := mul_le_mul_of_nonneg_right h1 (by linarith)
    have c2 : sqC d * s * X * (1 / cfT sqC (-X) m (d + 1)) ≤ sqC d * s * X * (1 / cfT sqC (-s) m (d + 1)) :=
      mul_le_mul_of_nonneg_left b (mul_nonneg (mul_nonneg hc h0) (h0.trans h1))
    calc _ = s * (2 * d - 1) + sqC d * s * X * (1 / cfT sqC (-X) m (d + 1)) := by ring
      _ ≤ X * (2 * d - 1) + sqC d * s * X * (1 / cfT sqC (-s) m (d + 1)) := add_le_add c1 c2
      _ = _ := by ring

/-- bound for the relative distance of two consecutive truncations, at the right end `X` -/
def atanE (X : K) : ℕ → ℕ → K
  | 0, d => sqC d * X / ((2 * d + 1) * (2 * d - 1))
  | m + 1, d => (1 - (2 * d - 1) / max (cfT sqC (-X) (m + 1) d) (cfT sqC (-X) (m + 2) d)) * atanE X m (d + 1)

theorem atanE_nonneg {X : K} (h0 : 0 ≤ X) : ∀ m d : ℕ, 1 ≤ d → 0 ≤ atanE X m d
  | 0, d, hd => by
    have hd' : (1:K) ≤ d := by exact_mod_cast hd
    exact div_nonneg (mul_nonneg (by simp [sqC]) h0) (mul_nonneg (by linarith) (by linarith))
  | m + 1, d, hd => by
    have hd' : (1:K) ≤ d := by exact_mod_cast hd
    refine mul_nonneg ?_ (atanE_nonneg h0 m (d + 1) (by omega))
    have := (atanT_ge X h0 (m + 1) d hd).trans (le_max_left _ (cfT sqC (-X) (m + 2) d))
    rw [sub_nonneg]
    exact div_le_one_of_le₀ this (by linarith)

private theorem step_aux {a k p q e M : K} (ha : 0 ≤ a) (hk : 0 ≤ k) (hp : 0 < p) (hpq : p ≤ q) (hM0 : 0 < M)
    (hM : a + k / q ≤ M) (he0 : 0 ≤ e) (h : |p - q| ≤ e * p) :
    |(a + k / p) - (a + k / q)| ≤ (1 - a / M) * e * min (a + k / p) (a + k / q) := by
  have hq : 0 < q := hp.trans_le hpq
  have kq : k / q ≤ k / p := div_le_div_of_nonneg_left hk hp hpq
  rw [min_eq_right (by linarith)]
  have e1 : (a + k / p) - (a + k / q) = k / q * ((q - p) / p) := by field_simp; ring
  have h' : (q - p) / p ≤ e := by
    rw [div_le_iff₀ hp]; rw [abs_sub_comm, abs_of_nonneg (by linarith)] at h; exact h
  have kq0 : 0 ≤ k / q := div_nonneg hk hq.le
  rw [e1, abs_of_nonneg (mul_nonneg kq0 (div_nonneg (by linarith) hp.le))]
  have t1 : k / q ≤ (1 - a / M) * (a + k / q) := by
    have : a / M * (a + k / q) ≤ a := by
      rw [div_mul_eq_mul_div, div_le_iff₀ hM0]; exact mul_le_mul_of_nonneg_left hM ha
    linarith
  calc _ ≤ k / q * e := mul_le_mul_of_nonneg_left h' kq0
    _ ≤ (1 - a / M) * (a + k / q) * e := mul_le_mul_of_nonneg_right t1 he0
    _ = _ := by ring

theorem atanT_diff {s X : K} (h0 : 0 ≤ s) (h1 : s ≤ X) : ∀ m d : ℕ, 1 ≤ d →
    |cfT sqC (-s) m d - cfT sqC (-s) (m + 1) d| ≤
      atanE X m d * min (cfT sqC (-s) m d) (cfT sqC (-s) (m + 1) d)
  | 0, d, hd => by
    have hd' : (1:K) ≤ d := by exact_mod_cast hd
    have c0 : (0:K) ≤ sqC d := by simp [sqC]
    have p : (0:K) < 2 * d + 1 := by linarith
    have q : (0:K) < 2 * d - 1 := by linarith
    have e : cfT sqC (-s) 1 d = 2 * d - 1 + sqC d * s / (2 * d + 1) := by
      simp only [cfT]; push_cast; rw [show 2 * ((d:K) + 1) - 1 = 2 * d + 1 by ring]; ring
    have hz : 0 ≤ sqC d * s / (2 * (d:K) + 1) := div_nonneg (mul_nonneg c0 h0) p.le
    rw [e, show cfT sqC (-s) 0 d = 2 * (d:K) - 1 from rfl, min_eq_left (by linarith),
      show 2 * (d:K) - 1 - (2 * d - 1 + sqC d * s / (2 * d + 1)) = -(sqC d * s / (2 * d + 1)) by ring,
      abs_neg, abs_of_nonneg hz, atanE]
    have e2 : sqC d * X / ((2 * (d:K) + 1) * (2 * d - 1)) * (2 * d - 1) = sqC d * X / (2 * d + 1) := by
      field_simp
    rw [e2]
    exact div_le_div_of_nonneg_right (mul_le_mul_of_nonneg_left h1 c0) p.le
  | m + 1, d, hd => by
    have hd' : (1:K) ≤ d := by exact_mod_cast hd
    have ih := atanT_diff h0 h1 m (d + 1) (by omega)
    have hX := h0.trans h1
    have p0 := atanT_pos s h0 m (d + 1) (by omega)
    have q0 := atanT_pos s h0 (m + 1) (d + 1) (by omega)
    have m1 := (atanT_mono h0 h1 (m + 1) d hd).1
    have m2 := (atanT_mono h0 h1 (m + 2) d hd).1
    have e1 : cfT sqC (-s) (m + 1) d = 2 * d - 1 + sqC d * s / cfT sqC (-s) m (d + 1) := by
      simp only [cfT]; ring
    have e2 : cfT sqC (-s) (m + 2) d = 2 * d - 1 + sqC d * s / cfT sqC (-s) (m + 1) (d + 1) := by
      rw [show cfT sqC (-s) (m + 2) d = 2 * d - 1 - sqC d * -s / cfT sqC (-s) (m + 1) (d + 1) from rfl]; ring
    have he := atanE_nonneg hX m (d + 1) (by omega)
    have hM0 : 0 < max (cfT sqC (-X) (m + 1) d) (cfT sqC (-X) (m + 2) d) :=
      lt_max_of_lt_left (atanT_pos X hX _ _ hd)
    have hk : 0 ≤ sqC d * s := mul_nonneg (by simp [sqC]) h0
    have ha : (0:K) ≤ 2 * d - 1 := by linarith
    rw [e1] at m1
    rw [e2] at m2
    rw [show m + 1 + 1 = m + 2 from rfl, e1, e2, atanE]
    rcases le_total (cfT sqC (-s) m (d + 1)) (cfT sqC (-s) (m + 1) (d + 1)) with h | h
    · rw [min_eq_left h] at ih
      exact step_aux ha hk p0 h hM0 (m2.trans (le_max_right _ _)) he ih
    · rw [min_eq_right h, abs_sub_comm] at ih
      rw [abs_sub_comm, min_comm]
      exact step_aux ha hk q0 h hM0 (m1.trans (le_max_left _ _)) he ih

end

theorem atanE_cast (X : ℚ) : ∀ m d : ℕ, ((atanE X m d : ℚ) : ℝ) = atanE (X : ℝ) m d
  | 0, d => by simp [atanE, sqC]
  | m + 1, d => by
    have h (m d : ℕ) : ((cfT sqC (-X) m d : ℚ) : ℝ) = cfT sqC (-(X:ℝ)) m d := by
      rw [cfT_cast]; simp only [sqC_cast]; push_cast; rfl
    simp only [atanE, Rat.cast_mul, Rat.cast_sub, Rat.cast_div, Rat.cast_max, h, atanE_cast X m (d + 1)]
    push_cast; rfl

theorem atanP_sign (s : ℝ) (h0 : 0 ≤ s) : ∀ m d : ℕ, 1 ≤ d → 0 ≤ (-1) ^ (m + 1) * cfP sqC (-s) m d
  | 0, d, _ => by
    have : (0:ℝ) ≤ sqC d := by simp [sqC]
    simp only [cfP]
    rw [show (-1:ℝ) ^ (0 + 1) * (sqC d * -s) = sqC d * s by ring]
    exact mul_nonneg this h0
  | m + 1, d, hd => by
    have ih := atanP_sign s h0 m (d + 1) (by omega)
    have c0 : (0:ℝ) ≤ sqC d := by simp [sqC]
    simp only [cfP]
    have : (-1:ℝ) ^ (m + 1 + 1) * (sqC d * -s / cfT sqC (-s) m (d + 1) ^ 2 * cfP sqC (-s) m (d + 1))
        = sqC d * s / cfT sqC (-s) m (d + 1) ^ 2 * ((-1) ^ (m + 1) * cfP sqC (-s) m (d + 1)) := by ring
    rw [this]
    exact mul_nonneg (div_nonneg (mul_nonneg c0 h0) (sq_nonneg _)) ih

/-- the truncations lie alternately above and below the arctangent -/
theorem atan_side {x : ℝ} (hx : 0 < x) (m : ℕ) :
    0 ≤ (-1) ^ m * (x / cfT sqC (-x ^ 2) m 1 - arctan x) := by
  have D : ∀ y : ℝ, ∃ g', HasDerivAt (fun z => z / cfT sqC (-z ^ 2) m 1) g' y ∧
      (1 + y ^ 2) * g' = 1 - cfP sqC (-y ^ 2) m 1 / cfT sqC (-y ^ 2) m 1 ^ 2 := by
    intro y
    obtain ⟨g', hg, hode⟩ := cf_ode sqC 1 (-1) y sqC_step m (fun m' d' _ hd => by
      rw [neg_one_mul]; exact (atanT_pos (y ^ 2) (sq_nonneg y) m' d' hd).ne')
    have hc : (sqC 1 : ℝ) = 1 := by simp [sqC]
    simp only [neg_one_mul, hc] at hg hode
    exact ⟨g', hg, by linarith⟩
  choose g' hg hode using D
  obtain ⟨ξ, hξ, he⟩ := exists_hasDerivAt_eq_slope (fun z => z / cfT sqC (-z ^ 2) m 1 - arctan z)
    (fun y => g' y - 1 / (1 + y ^ 2)) hx
    (fun y _ => ((hg y).sub (hasDerivAt_arctan y)).continuousAt.continuousWithinAt)
    (fun y _ => (hg y).sub (hasDerivAt_arctan y))
  rw [eq_div_iff (by linarith)] at he
  simp only [zero_div, arctan_zero, sub_zero] at he
  rw [← he]
  have hp : (0:ℝ) < 1 + ξ ^ 2 := by positivity
  have e : g' ξ - 1 / (1 + ξ ^ 2) = -(cfP sqC (-ξ ^ 2) m 1) / cfT sqC (-ξ ^ 2) m 1 ^ 2 / (1 + ξ ^ 2) := by
    have h := hode ξ
    rw [eq_div_iff hp.ne', sub_mul, mul_comm, h, one_div, inv_mul_cancel₀ hp.ne']
    ring
  have sg := atanP_sign (ξ ^ 2) (sq_nonneg ξ) m 1 le_rfl
  rw [e, show (-1:ℝ) ^ m * (-(cfP sqC (-ξ ^ 2) m 1) / cfT sqC (-ξ ^ 2) m 1 ^ 2 / (1 + ξ ^ 2) * x)
    = (-1) ^ (m + 1) * cfP sqC (-ξ ^ 2) m 1 / cfT sqC (-ξ ^ 2) m 1 ^ 2 / (1 + ξ ^ 2) * x by ring]
  exact mul_nonneg (div_nonneg (div_nonneg sg (sq_nonneg _)) hp.le) hx.le

/-- truncation error, relative -/
theorem atan_cf_trunc {x X : ℝ} (hx : 0 < x) (h : x ^ 2 ≤ X) (m : ℕ) :
    |x / cfT sqC (-x ^ 2) m 1 - arctan x| ≤ atanE X m 1 * arctan x := by
  have h0 := sq_nonneg x
  have s1 := atan_side hx m
  have s2 := atan_side hx (m + 1)
  have d := atanT_diff h0 h m 1 le_rfl
  have p := atanT_pos (x ^ 2) h0 m 1 le_rfl
  have q := atanT_pos (x ^ 2) h0 (m + 1) 1 le_rfl
  have e0 := atanE_nonneg (h0.trans h) m 1 le_rfl
  generalize cfT sqC (-x ^ 2) m 1 = T at *
  generalize cfT sqC (-x ^ 2) (m + 1) 1 = T' at *
  generalize arctan x = A at *
  generalize atanE X m 1 = E at *
  have hA : min (x / T) (x / T') ≤ A ∧ |x / T - A| ≤ |x / T - x / T'| := by
    rcases neg_one_pow_eq_or ℝ m with hm | hm
    · rw [pow_succ, hm] at s2; rw [hm] at s1
      refine ⟨min_le_of_right_le (by linarith), ?_⟩
      rw [abs_of_nonneg (by linarith), abs_of_nonneg (by linarith)]; linarith
    · rw [pow_succ, hm] at s2; rw [hm] at s1
      refine ⟨min_le_of_left_le (by linarith), ?_⟩
      rw [abs_of_nonpos (by linarith), abs_of_nonpos (by linarith)]; linarith
  refine hA.2.trans (le_trans ?_ (mul_le_mul_of_nonneg_left hA.1 e0))
  rcases le_total T T' with hT | hT
  · rw [min_eq_left hT, abs_sub_comm, abs_of_nonneg (by linarith)] at d
    have k : x / T' ≤ x / T := div_le_div_of_nonneg_left hx.le p hT
    rw [min_eq_right k, abs_of_nonneg (by linarith)]
    have e : x / T - x / T' = x / (T * T') * (T' - T) := by field_simp
    rw [e]
    calc _ ≤ x / (T * T') * (E * T) := mul_le_mul_of_nonneg_left d (by positivity)
      _ = _ := by field_simp
  · rw [min_eq_right hT, abs_of_nonneg (by linarith)] at d
    have k : x / T ≤ x / T' := div_le_div_of_nonneg_left hx.le q hT
    rw [min_eq_left k, abs_sub_comm, abs_of_nonneg (by linarith)]
    have e : x / T' - x / T = x / (T * T') * (T - T') := by field_simp
    rw [e]
    calc _ ≤ x / (T * T') * (E * T') := mul_le_mul_of_nonneg_left d (by positivity)
      _ = _ := by field_simp

end Gcem
