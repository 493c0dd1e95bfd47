import Verif.Analysis.ErfSeries
import Mathlib.Analysis.SpecialFunctions.Gaussian.GaussianIntegral
import Mathlib.Analysis.SpecialFunctions.Exp
import Mathlib.Analysis.Calculus.Deriv.MeanValue
import Mathlib.MeasureTheory.Integral.IntegralEqImproper

/-!
# Laplace's continued fraction of the complementary error function

`ecJ n` are the iterated integrals of `e^(-t^2)` from `x` to infinity (`ecJ 0 x = e^(-x^2)`,
`ecJ (n+1) x = ∫_x^∞ ecJ n`), given by their three-term recurrence.
-/

namespace Gcem
open Filter Topology

/-- `∫_x^∞ e^(-t^2) dt` -/
noncomputable def ecI (x : ℝ) : ℝ := Real.sqrt Real.pi / 2 - ∫ t in (0:ℝ)..x, Real.exp (-t ^ 2)

noncomputable def ecJ : ℕ → ℝ → ℝ
  | 0, x => Real.exp (-x ^ 2)
  | 1, x => ecI x
  | n + 2, x => (ecJ n x - 2 * x * ecJ (n + 1) x) / (2 * (n + 1))

theorem ecJ0_deriv (x : ℝ) : HasDerivAt (ecJ 0) (-(2 * x) * ecJ 0 x) x := by
  have h := ((hasDerivAt_pow 2 x).neg).exp
  refine h.congr_deriv ?_
  simp [ecJ]; ring

theorem ecI_deriv (x : ℝ) : HasDerivAt ecI (-Real.exp (-x ^ 2)) x := by
  have hc : Continuous fun t : ℝ => Real.exp (-t ^ 2) := by fun_prop
  have h := intervalIntegral.integral_hasDerivAt_right (hc.intervalIntegrable 0 x)
    (hc.stronglyMeasurableAtFilter _ _) hc.continuousAt
  exact (h.const_sub _)

theorem ecJ_deriv (n : ℕ) (x : ℝ) : HasDerivAt (ecJ (n + 1)) (-ecJ n x) x := by
  have h0 : HasDerivAt (ecJ 1) (-ecJ 0 x) x := by simpa [ecJ] using ecI_deriv x
  induction n using Nat.twoStepInduction with
  | zero => exact h0
  | one =>
    have e : ecJ (1 + 1) = fun x => (ecJ 0 x - 2 * x * ecJ 1 x) / 2 := by funext x; simp [ecJ]
    rw [e]
    have h := ((ecJ0_deriv x).sub (((hasDerivAt_id x).const_mul 2).mul h0)).div_const 2
    refine h.congr_deriv ?_
    simp; ring
  | more n h1 h2 =>
    have e : ecJ (n + 2 + 1) = fun x => (ecJ (n + 1) x - 2 * x * ecJ (n + 1 + 1) x) / (2 * (((n + 1 : ℕ):ℝ) + 1)) := by
      funext x; rw [show n + 2 + 1 = n + 1 + 2 by ring, ecJ]
    rw [e]
    have h := (h1.sub (((hasDerivAt_id x).const_mul 2).mul h2)).div_const (2 * (((n + 1 : ℕ):ℝ) + 1))
    refine h.congr_deriv ?_
    have r : ecJ (n + 2) x = (ecJ n x - 2 * x * ecJ (n + 1) x) / (2 * (n + 1)) := by rw [ecJ]
    have r' : ecJ n x = 2 * (n + 1) * ecJ (n + 2) x + 2 * x * ecJ (n + 1) x := by rw [r]; field_simp; ring
    have p : (2 * (((n + 1 : ℕ):ℝ) + 1)) ≠ 0 := by positivity
    rw [div_eq_iff p, r']
    push_cast
    simp
    ring

/-- a function with nonpositive derivative and limit 0 is nonnegative -/
theorem nonneg_of_deriv_nonpos {g g' : ℝ → ℝ} {a : ℝ} (h : ∀ x, HasDerivAt g (g' x) x) (h' : ∀ x, a ≤ x → g' x ≤ 0)
    (hl : Tendsto g atTop (𝓝 0)) {x : ℝ} (hx : a ≤ x) : 0 ≤ g x := by
  have anti : AntitoneOn g (Set.Ici a) := by
    refine antitoneOn_of_deriv_nonpos (convex_Ici a) (fun y _ => (h y).continuousAt.continuousWithinAt)
      (fun y _ => (h y).differentiableAt.differentiableWithinAt) fun y hy => ?_
    rw [(h y).deriv]
    rw [interior_Ici] at hy
    exact h' y (le_of_lt hy)
  refine le_of_tendsto hl ?_
  filter_upwards [eventually_ge_atTop x] with y hy
  exact anti (Set.mem_Ici.2 hx) (Set.mem_Ici.2 (hx.trans hy)) hy

theorem ecI_tendsto : Tendsto ecI atTop (𝓝 0) := by
  have h1 := MeasureTheory.intervalIntegral_tendsto_integral_Ioi (l := atTop) (b := fun x : ℝ => x) (0:ℝ)
    (f := fun t : ℝ => Real.exp (-1 * t ^ 2)) (integrable_exp_neg_mul_sq one_pos).integrableOn tendsto_id
  rw [integral_gaussian_Ioi, div_one] at h1
  have h2 := h1.const_sub (Real.sqrt Real.pi / 2)
  rw [sub_self] at h2
  refine h2.congr fun x => ?_
  unfold ecI
  simp

theorem pow_mul_ecJ0 (k : ℕ) : Tendsto (fun x : ℝ => x ^ k * ecJ 0 x) atTop (𝓝 0) := by
  refine squeeze_zero' (g := fun x : ℝ => x ^ k * Real.exp (-x)) ?_ ?_ (Real.tendsto_pow_mul_exp_neg_atTop_nhds_zero k)
  · filter_upwards [eventually_ge_atTop 0] with x hx
    exact mul_nonneg (pow_nonneg hx k) (Real.exp_pos _).le
  · filter_upwards [eventually_ge_atTop 1] with x hx
    refine mul_le_mul_of_nonneg_left ?_ (pow_nonneg (by linarith) k)
    rw [ecJ]
    exact Real.exp_le_exp.2 (by nlinarith)

theorem ecI_nonneg (x : ℝ) : 0 ≤ ecI x :=
  nonneg_of_deriv_nonpos ecI_deriv (fun _ _ => neg_nonpos.2 (Real.exp_pos _).le) ecI_tendsto (le_refl x)

theorem ecI_le {x : ℝ} (hx : 1 ≤ x) : ecI x ≤ ecJ 0 x := by
  have h := nonneg_of_deriv_nonpos (g := fun x => ecJ 0 x - ecI x) (g' := fun x => -(2 * x) * ecJ 0 x - -Real.exp (-x ^ 2))
    (a := 1) (fun x => (ecJ0_deriv x).sub (ecI_deriv x)) (fun x hx => by
      simp only [ecJ]
      have := Real.exp_pos (-x ^ 2)
      nlinarith) (by
      have := (pow_mul_ecJ0 0).sub ecI_tendsto
      simpa using this) hx
  linarith

theorem ecJ_tendsto (n : ℕ) : ∀ k : ℕ, Tendsto (fun x : ℝ => x ^ k * ecJ n x) atTop (𝓝 0) := by
  induction n using Nat.twoStepInduction with
  | zero => exact pow_mul_ecJ0
  | one =>
    intro k
    refine squeeze_zero' ?_ ?_ (pow_mul_ecJ0 k)
    · filter_upwards [eventually_ge_atTop 0] with x hx
      exact mul_nonneg (pow_nonneg hx k) (ecI_nonneg x)
    · filter_upwards [eventually_ge_atTop 1] with x hx
      exact mul_le_mul_of_nonneg_left (ecI_le hx) (pow_nonneg (by linarith) k)
  | more n h1 h2 =>
    intro k
    have h := ((h1 k).sub ((h2 (k + 1)).const_mul 2)).div_const (2 * ((n:ℝ) + 1))
    simp only [mul_zero, sub_zero, zero_div] at h
    refine h.congr fun x => ?_
    rw [ecJ, pow_succ]
    ring

theorem ecJ_pos (n : ℕ) (x : ℝ) : 0 < ecJ n x := by
  induction n generalizing x with
  | zero => exact Real.exp_pos _
  | succ n ih =>
    have nn : ∀ y, 0 ≤ ecJ (n + 1) y := fun y =>
      nonneg_of_deriv_nonpos (ecJ_deriv n) (fun z _ => neg_nonpos.2 (ih z).le) (by simpa using ecJ_tendsto (n + 1) 0) (le_refl y)
    have sa : StrictAnti (ecJ (n + 1)) := strictAnti_of_deriv_neg fun y => by
      rw [(ecJ_deriv n y).deriv]; exact neg_lt_zero.2 (ih y)
    exact lt_of_le_of_lt (nn (x + 1)) (sa (by linarith))

/-- the tails of the continued fraction -/
noncomputable def ecR (d : ℕ) (x : ℝ) : ℝ := ecJ (d - 1) x / ecJ d x

theorem ecR_pos (d : ℕ) (x : ℝ) : 0 < ecR d x := div_pos (ecJ_pos _ x) (ecJ_pos _ x)

theorem ecR_rec (d : ℕ) (hd : 1 ≤ d) (x : ℝ) : ecR d x = 2 * x + 2 * d / ecR (d + 1) x := by
  obtain ⟨n, rfl⟩ : ∃ n, d = n + 1 := ⟨d - 1, by omega⟩
  unfold ecR
  simp only [Nat.add_sub_cancel]
  have h1 := (ecJ_pos (n + 1) x).ne'
  have h2 := (ecJ_pos (n + 2) x).ne'
  have r : ecJ (n + 2) x = (ecJ n x - 2 * x * ecJ (n + 1) x) / (2 * (n + 1)) := by rw [ecJ]
  have r' : ecJ n x = 2 * (n + 1) * ecJ (n + 2) x + 2 * x * ecJ (n + 1) x := by rw [r]; field_simp; ring
  rw [div_div_eq_mul_div, div_eq_iff h1, add_mul, div_mul_cancel₀ _ h1, r']
  push_cast
  ring

theorem ecR_ge (d : ℕ) (hd : 1 ≤ d) (x : ℝ) : 2 * x ≤ ecR d x := by
  rw [ecR_rec d hd]
  have := ecR_pos (d + 1) x
  have : 0 ≤ 2 * (d:ℝ) / ecR (d + 1) x := by positivity
  linarith

/-- the complementary error function as a continued fraction -/
theorem erfR_eq_tail (x : ℝ) : erfR x = 1 - 2 * (Real.exp (-x ^ 2) / Real.sqrt Real.pi) / ecR 1 x := by
  have p : 0 < Real.sqrt Real.pi := Real.sqrt_pos.2 Real.pi_pos
  have h : ecJ 1 x = Real.sqrt Real.pi / 2 - ∫ t in (0:ℝ)..x, Real.exp (-t ^ 2) := rfl
  have h0 : ecJ 0 x = Real.exp (-x ^ 2) := rfl
  have e0 := (Real.exp_pos (-x ^ 2)).ne'
  have h1 := (ecJ_pos 1 x).ne'
  have e1 : 2 * (Real.exp (-x ^ 2) / Real.sqrt Real.pi) / ecR 1 x = 2 / Real.sqrt Real.pi * ecJ 1 x := by
    unfold ecR
    rw [Nat.sub_self, h0]
    field_simp
  rw [e1, h]
  unfold erfR
  field_simp
  ring

theorem erfR_lt_one (x : ℝ) : erfR x < 1 := by
  rw [erfR_eq_tail]
  have p : 0 < Real.sqrt Real.pi := Real.sqrt_pos.2 Real.pi_pos
  have := ecR_pos 1 x
  have : 0 < 2 * (Real.exp (-x ^ 2) / Real.sqrt Real.pi) / ecR 1 x := by positivity
  linarith

/-- one step: the deviation factor contracts by `P / R ≤ θ` -/
theorem ec_step {y P R κ θ M : ℝ} (hy : 0 < y) (hP : 0 < P) (hR : R = y + P) (hθ : P ≤ θ * R) (hκ : 1 ≤ κ)
    (h1 : M ≤ y + κ * P) (h2 : y + P / κ ≤ M) : M ≤ (1 + θ * (κ - 1)) * R ∧ R ≤ (1 + θ * (κ - 1)) * M := by
  have Rp : 0 < R := by linarith
  have k0 : 0 < κ := by linarith
  constructor
  · have := mul_le_mul_of_nonneg_right hθ (show 0 ≤ κ - 1 by linarith)
    nlinarith
  · have h3 : R ≤ (1 + P / R * (κ - 1)) * (y + P / κ) := by
      have e : (1 + P / R * (κ - 1)) * (y + P / κ) = R + P * y * (κ - 1) ^ 2 / (R * κ) := by
        rw [hR]; field_simp; ring
      rw [e]
      have : 0 ≤ P * y * (κ - 1) ^ 2 / (R * κ) := by positivity
      linarith
    have hq : P / R ≤ θ := by rw [div_le_iff₀ Rp]; exact hθ
    have q0 : 0 ≤ P / R := by positivity
    have m0 : 0 < y + P / κ := by positivity
    refine h3.trans (mul_le_mul ?_ h2 m0.le ?_)
    · have := mul_le_mul_of_nonneg_right hq (show 0 ≤ κ - 1 by linarith); linarith
    · have := mul_nonneg (q0.trans hq) (show 0 ≤ κ - 1 by linarith); linarith

end Gcem
