import Mathlib.Analysis.SpecialFunctions.Gamma.Basic
import Mathlib.MeasureTheory.Integral.IntegralEqImproper
import Mathlib.Analysis.SpecialFunctions.Pow.Asymptotics
import Mathlib.Analysis.SpecialFunctions.Pow.Deriv

/-!
# The upper incomplete gamma function and its continued fraction

`K a z d = ∫_z^∞ e^{-s} (s - z)^d s^{a-1-d} ds`; `K a z 0` is the upper incomplete gamma function.
-/

namespace Gcem.UG
open Set MeasureTheory Filter Real Topology

/-- the integrand -/
noncomputable def k (a z : ℝ) (d : ℕ) (s : ℝ) : ℝ := exp (-s) * ((s - z) ^ d * s ^ (a - 1 - d))

/-- the integral -/
noncomputable def K (a z : ℝ) (d : ℕ) : ℝ := ∫ s in Ioi z, k a z d s

theorem k_pos {a z : ℝ} (hz : 0 < z) (d : ℕ) {s : ℝ} (hs : z < s) : 0 < k a z d s := by
  have : 0 < s := hz.trans hs
  have : 0 < s - z := by linarith
  unfold k; positivity

/-- `k_{d+1} = k_d (s - z)/s` -/
theorem k_succ {a z : ℝ} (hz : 0 < z) (d : ℕ) {s : ℝ} (hs : z < s) : k a z (d + 1) s = k a z d s * ((s - z) / s) := by
  have h0 : 0 < s := hz.trans hs
  unfold k
  rw [show a - 1 - ((d + 1 : ℕ) : ℝ) = a - 1 - d - 1 by push_cast; ring, rpow_sub_one h0.ne']
  field_simp
  ring

theorem k_anti {a z : ℝ} (hz : 0 < z) (d : ℕ) {s : ℝ} (hs : z < s) : k a z (d + 1) s ≤ k a z d s := by
  have h0 : 0 < s := hz.trans hs
  rw [k_succ hz d hs]
  exact mul_le_of_le_one_right (k_pos hz d hs).le (by rw [div_le_one h0]; linarith)

theorem k_int {a z : ℝ} (ha : 0 < a) (hz : 0 < z) (d : ℕ) : IntegrableOn (k a z d) (Ioi z) := by
  induction d with
  | zero =>
    have := (Real.GammaIntegral_convergent ha).mono_set (Ioi_subset_Ioi hz.le)
    refine this.congr_fun (fun s _ => ?_) measurableSet_Ioi
    unfold k; simp
  | succ d ih =>
    refine ih.mono' ?_ ?_
    · refine ContinuousOn.aestronglyMeasurable ?_ measurableSet_Ioi
      unfold k
      refine ContinuousOn.mul (by fun_prop) (ContinuousOn.mul (by fun_prop) ?_)
      exact ContinuousOn.rpow_const (by fun_prop) fun s hs => Or.inl (hz.trans hs).ne'
    · refine (ae_restrict_iff' measurableSet_Ioi).2 (Eventually.of_forall fun s hs => ?_)
      rw [norm_of_nonneg (k_pos hz _ hs).le]
      exact k_anti hz d hs

theorem K_pos {a z : ℝ} (ha : 0 < a) (hz : 0 < z) (d : ℕ) : 0 < K a z d := by
  unfold K
  rw [setIntegral_pos_iff_support_of_nonneg_ae]
  · have : Function.support (k a z d) ∩ Ioi z = Ioi z := by
      rw [inter_eq_right]; intro s hs; exact (k_pos hz d hs).ne'
    rw [this]; simp
  · refine (ae_restrict_iff' measurableSet_Ioi).2 (Eventually.of_forall fun s hs => (k_pos hz d hs).le)
  · exact k_int ha hz d

theorem K_anti {a z : ℝ} (ha : 0 < a) (hz : 0 < z) (d : ℕ) : K a z (d + 1) ≤ K a z d :=
  setIntegral_mono_on (k_int ha hz _) (k_int ha hz _) measurableSet_Ioi fun _ hs => k_anti hz d hs

/-- the antiderivative used for the recurrence -/
noncomputable def G (a z : ℝ) (d : ℕ) (s : ℝ) : ℝ := z * (exp (-s) * ((s - z) ^ d * s ^ (a - 1 - d)))

theorem G_tendsto (a z : ℝ) (hz : 0 < z) (d : ℕ) : Tendsto (G a z d) atTop (𝓝 0) := by
  have h := (tendsto_rpow_mul_exp_neg_mul_atTop_nhds_zero (a - 1) 1 one_pos).const_mul z
  rw [mul_zero] at h
  refine squeeze_zero' ?_ ?_ h
  · filter_upwards [eventually_gt_atTop z] with s hs
    exact mul_nonneg hz.le (k_pos hz d hs).le
  · filter_upwards [eventually_gt_atTop z] with s hs
    have h0 : 0 < s := hz.trans hs
    have h1 : (s - z) ^ d * s ^ (a - 1 - d) ≤ s ^ (a - 1) := by
      rw [rpow_sub h0, rpow_natCast, ← mul_div_assoc, div_le_iff₀ (by positivity), mul_comm]
      gcongr
      linarith
    unfold G
    rw [neg_one_mul, mul_comm (s ^ (a - 1))]
    gcongr

theorem G_deriv {a z : ℝ} (hz : 0 < z) (d : ℕ) {s : ℝ} (hs : z ≤ s) :
    HasDerivAt (G a z d) (z * (-exp (-s) * ((s - z) ^ d * s ^ (a - 1 - d)) +
      exp (-s) * ((d * (s - z) ^ (d - 1)) * s ^ (a - 1 - d) + (s - z) ^ d * ((a - 1 - d) * s ^ (a - 1 - d - 1))))) s := by
  have h0 : 0 < s := hz.trans_le hs
  have h1 : HasDerivAt (fun s : ℝ => exp (-s)) (-exp (-s)) s := by
    have := (hasDerivAt_neg s).exp; simpa using this
  have h2 : HasDerivAt (fun s : ℝ => (s - z) ^ d) (d * (s - z) ^ (d - 1)) s := by
    have := ((hasDerivAt_id s).sub_const z).fun_pow d; simpa using this
  have h3 : HasDerivAt (fun s : ℝ => s ^ (a - 1 - d)) ((a - 1 - d) * s ^ (a - 1 - d - 1)) s :=
    hasDerivAt_rpow_const (Or.inl h0.ne')
  exact (h1.mul (h2.mul h3)).const_mul z

theorem K_rec_zero {a z : ℝ} (ha : 0 < a) (hz : 0 < z) :
    z ^ a * exp (-z) = (z + 1 - a) * K a z 0 + (a - 1) * K a z 1 := by
  have e : ∀ s ∈ Ioi z, z * (-exp (-s) * ((s - z) ^ 0 * s ^ (a - 1 - (0:ℕ))) +
      exp (-s) * (((0:ℕ) * (s - z) ^ (0 - 1)) * s ^ (a - 1 - (0:ℕ)) + (s - z) ^ 0 * ((a - 1 - (0:ℕ)) * s ^ (a - 1 - (0:ℕ) - 1)))) =
      (-z + (a - 1)) * k a z 0 s + (-(a - 1)) * k a z 1 s := by
    intro s hs
    have h0 : 0 < s := hz.trans hs
    rw [k_succ hz 0 hs]
    unfold k
    simp only [Nat.cast_zero, sub_zero, pow_zero, one_mul, zero_mul, zero_add]
    rw [rpow_sub_one h0.ne' (a - 1)]
    field_simp
    ring
  have hi : IntegrableOn (fun s => (-z + (a - 1)) * k a z 0 s + (-(a - 1)) * k a z 1 s) (Ioi z) :=
    ((k_int ha hz 0).const_mul _).add ((k_int ha hz 1).const_mul _)
  have h := integral_Ioi_of_hasDerivAt_of_tendsto' (fun s hs => G_deriv (a := a) hz 0 hs)
    ((integrableOn_congr_fun e measurableSet_Ioi).2 hi) (G_tendsto a z hz 0)
  rw [setIntegral_congr_fun measurableSet_Ioi e, integral_add ((k_int ha hz 0).const_mul _) ((k_int ha hz 1).const_mul _),
    integral_const_mul, integral_const_mul] at h
  have e2 : G a z 0 z = z ^ a * exp (-z) := by
    unfold G
    simp only [Nat.cast_zero, sub_zero, pow_zero, one_mul]
    rw [rpow_sub_one hz.ne']; field_simp
  rw [e2] at h
  unfold K; linarith

theorem K_rec {a z : ℝ} (ha : 0 < a) (hz : 0 < z) (d : ℕ) :
    (d + 1) * K a z d = (z + 2 * d + 3 - a) * K a z (d + 1) + (a - 2 - d) * K a z (d + 2) := by
  have e : ∀ s ∈ Ioi z, z * (-exp (-s) * ((s - z) ^ (d + 1) * s ^ (a - 1 - (d + 1 : ℕ))) +
      exp (-s) * (((d + 1 : ℕ) * (s - z) ^ (d + 1 - 1)) * s ^ (a - 1 - (d + 1 : ℕ)) + (s - z) ^ (d + 1) * ((a - 1 - (d + 1 : ℕ)) * s ^ (a - 1 - (d + 1 : ℕ) - 1)))) =
      (d + 1) * k a z d s + ((-z - (d + 1) + (a - 2 - d)) * k a z (d + 1) s + (-(a - 2 - d)) * k a z (d + 2) s) := by
    intro s hs
    have h0 : 0 < s := hz.trans hs
    rw [k_succ hz (d + 1) hs, k_succ hz d hs]
    unfold k
    rw [show a - 1 - ((d + 1 : ℕ) : ℝ) = a - 1 - d - 1 by push_cast; ring, rpow_sub_one h0.ne' (a - 1 - d - 1), rpow_sub_one h0.ne']
    simp only [Nat.add_sub_cancel]
    push_cast
    field_simp
    ring
  have hi1 : IntegrableOn (fun s => (-z - (d + 1) + (a - 2 - d)) * k a z (d + 1) s + (-(a - 2 - d)) * k a z (d + 2) s) (Ioi z) :=
    ((k_int ha hz (d + 1)).const_mul _).add ((k_int ha hz (d + 2)).const_mul _)
  have hi : IntegrableOn (fun s => (d + 1) * k a z d s + ((-z - (d + 1) + (a - 2 - d)) * k a z (d + 1) s + (-(a - 2 - d)) * k a z (d + 2) s)) (Ioi z) :=
    ((k_int ha hz d).const_mul _).add hi1
  have h := integral_Ioi_of_hasDerivAt_of_tendsto' (fun s hs => G_deriv (a := a) hz (d + 1) hs)
    ((integrableOn_congr_fun e measurableSet_Ioi).2 hi) (G_tendsto a z hz (d + 1))
  rw [setIntegral_congr_fun measurableSet_Ioi e, integral_add ((k_int ha hz d).const_mul _) hi1,
    integral_add ((k_int ha hz (d + 1)).const_mul _) ((k_int ha hz (d + 2)).const_mul _),
    integral_const_mul, integral_const_mul, integral_const_mul] at h
  have e2 : G a z (d + 1) z = 0 := by unfold G; simp
  rw [e2] at h
  unfold K; linarith

/-- the tail of the continued fraction: `T 1 = z^a e^{-z} / Γ(a, z)` and `T (d+1) = d K_{d-1} / K_d` -/
noncomputable def T (a z : ℝ) : ℕ → ℝ
  | 0 => 1
  | 1 => z ^ a * exp (-z) / K a z 0
  | d + 2 => (d + 1) * K a z d / K a z (d + 1)

theorem T_pos {a z : ℝ} (ha : 0 < a) (hz : 0 < z) (d : ℕ) : 0 < T a z d := by
  have := fun d => K_pos ha hz d
  rcases d with _ | _ | d
  · simp [T]
  · exact div_pos (by positivity) (this 0)
  · exact div_pos (mul_pos (by positivity) (this _)) (this _)

theorem T_rec {a z : ℝ} (ha : 0 < a) (hz : 0 < z) {d : ℕ} (hd : 1 ≤ d) :
    T a z d = (2 * d - 1 - a + z) + d * (a - d) / T a z (d + 1) := by
  have hK := fun d => K_pos ha hz d
  obtain ⟨d, rfl⟩ : ∃ e, d = e + 1 := ⟨d - 1, by omega⟩
  rcases d with _ | d
  · have h := K_rec_zero ha hz
    have h0 := hK 0
    have h1 := hK 1
    simp only [T, h]
    push_cast
    field_simp
    ring
  · have h := K_rec ha hz d
    have h0 := hK (d + 1)
    have h1 := hK (d + 2)
    have h2 := hK d
    simp only [T, h]
    push_cast
    field_simp
    ring

theorem T_ge {a z : ℝ} (ha : 0 < a) (hz : 0 < z) (d : ℕ) (hd : 1 ≤ d) : d ≤ T a z (d + 1) := by
  obtain ⟨d, rfl⟩ : ∃ e, d = e + 1 := ⟨d - 1, by omega⟩
  show _ ≤ (d + 1) * K a z d / K a z (d + 1)
  rw [le_div_iff₀ (K_pos ha hz _)]
  push_cast
  exact mul_le_mul_of_nonneg_left (K_anti ha hz d) (by positivity)

/-- complement: `Γ(a) - ∫_0^z` -/
theorem K_compl {a z : ℝ} (ha : 0 < a) (hz : 0 < z) : (∫ t in Ioc 0 z, exp (-t) * t ^ (a - 1)) = Gamma a - K a z 0 := by
  have hi := Real.GammaIntegral_convergent ha
  rw [Gamma_eq_integral ha, ← Ioc_union_Ioi_eq_Ioi hz.le, setIntegral_union (Ioc_disjoint_Ioi le_rfl) measurableSet_Ioi
    (hi.mono_set Ioc_subset_Ioi_self) (hi.mono_set (Ioi_subset_Ioi hz.le))]
  have : ∫ x in Ioi z, exp (-x) * x ^ (a - 1) = K a z 0 := by
    unfold K k; simp
  rw [this]; ring

end Gcem.UG
