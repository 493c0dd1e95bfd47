import Verif.Analysis.CfRic
import Mathlib.Analysis.SpecialFunctions.Log.Deriv
import Mathlib.Analysis.Calculus.MeanValue

/-!
# The continued fraction of the logarithm

`logT s` is the exact value of the loop of log.hpp:39-52 at `depth = 1`, as a function of `s = z^2`; twice
`z / logT (z^2)` is compared with `log ((1+z)/(1-z))`.
-/

namespace Gcem
open Real

/-- coefficients `d^2` -/
def sqC {K : Type*} [Field K] (d : ℕ) : K := (d : K) ^ 2

theorem sqC_cast (d : ℕ) : ((sqC d : ℚ) : ℝ) = sqC d := by simp [sqC]

theorem sqC_step (d : ℕ) : (sqC (d + 1) : ℝ) = sqC d + 1 * (2 * d + 1) := by simp only [sqC]; push_cast; ring

section
variable {K : Type*} [Field K] [LinearOrder K] [IsStrictOrderedRing K]

/-- all the partial denominators are at least nine tenths of `2d - 1` -/
theorem logT_ge (s : K) (h0 : 0 ≤ s) (h1 : s ≤ 27 / 100) : ∀ m d : ℕ, 1 ≤ d →
    9 / 10 * (2 * d - 1) ≤ cfT sqC s m d ∧ cfT sqC s m d ≤ 2 * d - 1
  | 0, d, hd => by
    have : (1:K) ≤ d := by exact_mod_cast hd
    simp only [cfT]; constructor <;> linarith
  | m + 1, d, hd => by
    have hd' : (1:K) ≤ d := by exact_mod_cast hd
    obtain ⟨ih, -⟩ := logT_ge s h0 h1 m (d + 1) (by omega)
    push_cast at ih
    have p : (0:K) < 9 / 10 * (2 * (d + 1) - 1) := by linarith
    have p' : 0 < cfT sqC s m (d + 1) := by linarith
    have hT : sqC d * s / cfT sqC s m (d + 1) ≤ 1 / 10 * (2 * d - 1) := by
      rw [div_le_iff₀ p']
      have a : (sqC d : K) * s ≤ d ^ 2 * (27 / 100) := mul_le_mul_of_nonneg_left h1 (by simp [sqC])
      have b : 1 / 10 * (2 * d - 1) * (9 / 10 * (2 * ((d:K) + 1) - 1)) ≤ 1 / 10 * (2 * d - 1) * cfT sqC s m (d + 1) :=
        mul_le_mul_of_nonneg_left ih (by linarith)
      nlinarith
    have hT0 : 0 ≤ sqC d * s / cfT sqC s m (d + 1) := div_nonneg (mul_nonneg (by simp [sqC]) h0) p'.le
    simp only [cfT]; constructor <;> linarith

theorem logT_pos (s : K) (h0 : 0 ≤ s) (h1 : s ≤ 27 / 100) (m d : ℕ) (hd : 1 ≤ d) : 0 < cfT sqC s m d := by
  have := (logT_ge s h0 h1 m d hd).1
  have : (1:K) ≤ d := by exact_mod_cast hd
  linarith
end

theorem logP_bound (s : ℝ) (h0 : 0 ≤ s) (h1 : s ≤ 1 / 8) : ∀ m d : ℕ, 1 ≤ d →
    0 ≤ cfP sqC s m d ∧ cfP sqC s m d ≤ (1 / 25) ^ m * ((d + m) ^ 2 / 8)
  | 0, d, hd => by
    simp only [cfP, sqC]
    refine ⟨by positivity, ?_⟩
    have : (d:ℝ) ^ 2 * s ≤ d ^ 2 * (1 / 8) := mul_le_mul_of_nonneg_left h1 (by positivity)
    push_cast; linarith
  | m + 1, d, hd => by
    have hd' : (1:ℝ) ≤ d := by exact_mod_cast hd
    obtain ⟨i0, i1⟩ := logP_bound s h0 h1 m (d + 1) (by omega)
    have t := (logT_ge s h0 (by linarith) m (d + 1) (by omega)).1
    push_cast at t i1
    have tp : (0:ℝ) < 9 / 10 * (2 * (d + 1) - 1) := by linarith
    have tp' : 0 < cfT sqC s m (d + 1) := by linarith
    have k0 : 0 ≤ sqC d * s / cfT sqC s m (d + 1) ^ 2 := div_nonneg (mul_nonneg (by simp [sqC]) h0) (by positivity)
    have k1 : sqC d * s / cfT sqC s m (d + 1) ^ 2 ≤ 1 / 25 := by
      rw [div_le_iff₀ (by positivity)]
      have a : (sqC d : ℝ) * s ≤ d ^ 2 * (1 / 8) := mul_le_mul_of_nonneg_left h1 (by simp [sqC])
      have b : (9 / 10 * (2 * ((d:ℝ) + 1) - 1)) ^ 2 ≤ cfT sqC s m (d + 1) ^ 2 := pow_le_pow_left₀ tp.le t 2
      nlinarith
    simp only [cfP]
    refine ⟨mul_nonneg k0 i0, ?_⟩
    calc _ ≤ 1 / 25 * ((1 / 25) ^ m * (((d:ℝ) + 1 + m) ^ 2 / 8)) := mul_le_mul k1 i1 i0 (by norm_num)
      _ = _ := by push_cast; ring

/-- twice the inverse hyperbolic tangent -/
noncomputable def L2 (z : ℝ) : ℝ := log (1 + z) - log (1 - z)

theorem L2_zero : L2 0 = 0 := by simp [L2]
theorem L2_neg (z : ℝ) : L2 (-z) = -L2 z := by simp [L2, sub_eq_add_neg, add_comm]

theorem L2_hasDerivAt {z : ℝ} (h : |z| < 1) : HasDerivAt L2 (2 / (1 - z ^ 2)) z := by
  obtain ⟨h1, h2⟩ := abs_lt.1 h
  have a := ((hasDerivAt_id z).const_add 1).log (by simp only [id]; linarith)
  have b := ((hasDerivAt_id z).const_sub 1).log (by simp only [id]; linarith)
  refine HasDerivAt.congr_deriv (a.sub b) ?_
  have p1 : 1 + z ≠ 0 := by linarith
  have p2 : 1 - z ≠ 0 := by linarith
  have e : 1 - z ^ 2 = (1 + z) * (1 - z) := by ring
  simp only [id]
  rw [e]
  field_simp
  ring

theorem L2_of (x : ℝ) (hx : 0 < x) : L2 ((x - 1) / (x + 1)) = log x := by
  unfold L2
  have e1 : 1 + (x - 1) / (x + 1) = 2 * x / (x + 1) := by field_simp; ring
  have e2 : 1 - (x - 1) / (x + 1) = 2 / (x + 1) := by field_simp; ring
  rw [e1, e2, ← log_div (by positivity) (by positivity)]
  congr 1
  field_simp

theorem L2_ge_two {z : ℝ} (h0 : 0 ≤ z) (h1 : z < 1) : 2 * z ≤ L2 z := by
  rcases h0.eq_or_lt with rfl | hz
  · simp [L2_zero]
  obtain ⟨ξ, hξ, he⟩ := exists_hasDerivAt_eq_slope L2 (fun z => 2 / (1 - z ^ 2)) hz
    (fun y hy => (L2_hasDerivAt (by rw [abs_of_nonneg hy.1]; linarith [hy.2])).continuousAt.continuousWithinAt)
    (fun y hy => L2_hasDerivAt (by rw [abs_of_pos hy.1]; linarith [hy.2]))
  rw [L2_zero, sub_zero, sub_zero, eq_div_iff hz.ne'] at he
  rw [← he]
  have : ξ ^ 2 < 1 := by nlinarith [hξ.1, hξ.2]
  refine mul_le_mul_of_nonneg_right ?_ hz.le
  rw [le_div_iff₀ (by linarith)]
  nlinarith [sq_nonneg ξ]

theorem L2_abs_ge {z : ℝ} (h1 : |z| < 1) : 2 * |z| ≤ |L2 z| := by
  rcases le_total 0 z with h | h
  · rw [abs_of_nonneg h] at h1 ⊢
    exact (L2_ge_two h h1).trans (le_abs_self _)
  · rw [abs_of_nonpos h] at h1 ⊢
    have := L2_ge_two (z := -z) (by linarith) h1
    rw [← abs_neg, ← L2_neg]
    exact this.trans (le_abs_self _)

theorem L2_lipschitz {a b r : ℝ} (hr : r < 1) (ha : |a| ≤ r) (hb : |b| ≤ r) :
    |L2 a - L2 b| ≤ 2 / (1 - r ^ 2) * |a - b| := by
  have r0 : 0 ≤ r := (abs_nonneg _).trans ha
  have := Convex.norm_image_sub_le_of_norm_hasDerivWithin_le (f := L2) (f' := fun z => 2 / (1 - z ^ 2))
    (s := Set.Icc (-r) r) (C := 2 / (1 - r ^ 2)) (x := b) (y := a)
    (fun y hy => (L2_hasDerivAt (lt_of_le_of_lt (abs_le.2 hy) hr)).hasDerivWithinAt)
    (fun y hy => by
      have hy' : |y| ≤ r := abs_le.2 hy
      have : y ^ 2 ≤ r ^ 2 := by rw [← sq_abs y]; exact pow_le_pow_left₀ (abs_nonneg _) hy' 2
      have r1 : 0 < 1 - r ^ 2 := by nlinarith
      rw [norm_eq_abs, abs_of_pos (div_pos two_pos (by linarith))]
      exact div_le_div_of_nonneg_left (by norm_num) r1 (by linarith))
    (convex_Icc _ _) (abs_le.1 hb) (abs_le.1 ha)
  simpa using this

/-- truncation error of the 25-level fraction -/
theorem log_cf_trunc {z : ℝ} (h : z ^ 2 ≤ 1 / 8) :
    |2 * (z / cfT sqC (z ^ 2) 24 1) - L2 z| ≤ 1 / 10 ^ 30 * |z| := by
  have hz1 : |z| ≤ 2 / 5 := by
    by_contra hc
    push Not at hc
    have : (2 / 5 : ℝ) ^ 2 < |z| ^ 2 := by gcongr
    rw [sq_abs] at this; norm_num at this; linarith
  have key := Convex.norm_image_sub_le_of_norm_hasDerivWithin_le
    (f := fun z => 2 * (z / cfT sqC (1 * z ^ 2) 24 1) - L2 z)
    (f' := fun z => 2 * (-(cfP sqC (1 * z ^ 2) 24 1 / cfT sqC (1 * z ^ 2) 24 1 ^ 2) / (1 - z ^ 2)))
    (s := Set.Icc (-|z|) |z|) (C := 1 / 10 ^ 30) (x := 0) (y := z) ?_ ?_ (convex_Icc _ _)
    ⟨by simp, by simp⟩ ⟨neg_abs_le z, le_abs_self z⟩
  · simpa [L2_zero] using key
  · intro y hy
    have hy' : |y| ≤ |z| := abs_le.2 hy
    have hy2 : y ^ 2 ≤ 1 / 8 := by
      have := pow_le_pow_left₀ (abs_nonneg _) hy' 2
      rw [sq_abs, sq_abs] at this; linarith
    obtain ⟨g', hg, hode⟩ := cf_ode sqC 1 1 y sqC_step 24 (fun m' d' _ hd => by
      rw [one_mul]; exact (logT_pos (y ^ 2) (sq_nonneg y) (by linarith) m' d' hd).ne')
    have hL := L2_hasDerivAt (z := y) (by linarith)
    refine HasDerivAt.hasDerivWithinAt (HasDerivAt.congr_deriv ((hg.const_mul 2).sub hL) ?_)
    have h1 : 1 - y ^ 2 ≠ 0 := by linarith
    have e : g' = (1 - cfP sqC (1 * y ^ 2) 24 1 / cfT sqC (1 * y ^ 2) 24 1 ^ 2) / (1 - y ^ 2) := by
      rw [eq_div_iff h1]
      have : (sqC 1 : ℝ) = 1 := by simp [sqC]
      rw [this] at hode
      linarith
    rw [e]
    field_simp
    ring
  · intro y hy
    have hy' : |y| ≤ |z| := abs_le.2 hy
    have hy2 : y ^ 2 ≤ 1 / 8 := by
      have := pow_le_pow_left₀ (abs_nonneg _) hy' 2
      rw [sq_abs, sq_abs] at this; linarith
    rw [one_mul]
    obtain ⟨p0, p1⟩ := logP_bound (y ^ 2) (sq_nonneg y) hy2 24 1 le_rfl
    obtain ⟨t0, -⟩ := logT_ge (y ^ 2) (sq_nonneg y) (by linarith) 24 1 le_rfl
    generalize cfP sqC (y ^ 2) 24 1 = P at *
    generalize cfT sqC (y ^ 2) 24 1 = T at *
    have tp : (0:ℝ) < T := by norm_num at t0; linarith
    have t2 : (81 / 100 : ℝ) ≤ T ^ 2 := by norm_num at t0; nlinarith
    rw [norm_eq_abs, abs_mul, abs_div, abs_neg, abs_of_nonneg (div_nonneg p0 (by positivity)),
      abs_of_pos (show (0:ℝ) < 1 - y ^ 2 by linarith), abs_of_pos (two_pos (α := ℝ))]
    have a : P / T ^ 2 ≤ (1 / 25) ^ 24 * ((1 + 24) ^ 2 / 8) / (81 / 100) := by
      refine div_le_div₀ (by positivity) ?_ (by norm_num) t2
      push_cast at p1; exact p1
    have b : P / T ^ 2 / (1 - y ^ 2) ≤ (1 / 25) ^ 24 * ((1 + 24) ^ 2 / 8) / (81 / 100) / (7 / 8) :=
      div_le_div₀ (by positivity) a (by norm_num) (by linarith)
    refine (mul_le_mul_of_nonneg_left b two_pos.le).trans ?_
    norm_num

end Gcem
