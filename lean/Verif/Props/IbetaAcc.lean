import Verif.Props.IbetaLoop
import Verif.Props.BetaAcc
import Verif.Props.IgammaTail

/-!
# C81: accuracy of incomplete_beta
-/

namespace Gcem.Props
open Gcem FV IB
variable {f : Fmt}

/-! ### the regularized incomplete beta function -/

noncomputable def ibI (a b z : ℝ) : ℝ := (∫ t in (0:ℝ)..z, t ^ (a - 1) * (1 - t) ^ (b - 1)) / betaR a b

section real
variable {a b z : ℝ}

theorem ib_integrable (ha : 0 < a) (hb : 0 < b) {x y : ℝ} (h0 : 0 ≤ x) (hxy : x ≤ y) (h1 : y ≤ 1) :
    IntervalIntegrable (fun t : ℝ => t ^ (a - 1) * (1 - t) ^ (b - 1)) MeasureTheory.volume x y := by
  refine (betaR_integrable ha hb).mono_set ?_
  rw [Set.uIcc_of_le hxy, Set.uIcc_of_le zero_le_one]
  exact Set.Icc_subset_Icc h0 h1

theorem ib_split (ha : 0 < a) (hb : 0 < b) {x : ℝ} (h0 : 0 ≤ x) (h1 : x ≤ 1) :
    (∫ t in (0:ℝ)..x, t ^ (a - 1) * (1 - t) ^ (b - 1)) + ∫ t in x..1, t ^ (a - 1) * (1 - t) ^ (b - 1) = betaR a b :=
  intervalIntegral.integral_add_adjacent_intervals (ib_integrable ha hb le_rfl h0 h1) (ib_integrable ha hb h0 h1 le_rfl)

theorem ib_nonneg' {x y : ℝ} (h0 : 0 ≤ x) (hxy : x ≤ y) (h1 : y ≤ 1) : 0 ≤ ∫ t in x..y, t ^ (a - 1) * (1 - t) ^ (b - 1) := by
  refine intervalIntegral.integral_nonneg hxy fun t ht => ?_
  exact mul_nonneg (Real.rpow_nonneg (by linarith [ht.1]) _) (Real.rpow_nonneg (by linarith [ht.2]) _)

theorem ibI_nonneg (ha : 0 < a) (hb : 0 < b) (h0 : 0 ≤ z) (h1 : z ≤ 1) : 0 ≤ ibI a b z :=
  div_nonneg (ib_nonneg' le_rfl h0 h1) (betaR_pos ha hb).le

theorem ibI_le_one (ha : 0 < a) (hb : 0 < b) (h0 : 0 ≤ z) (h1 : z ≤ 1) : ibI a b z ≤ 1 := by
  unfold ibI
  rw [div_le_one (betaR_pos ha hb), ← ib_split ha hb h0 h1]
  linarith [ib_nonneg' (a := a) (b := b) h0 h1 le_rfl]

theorem betaR_symm (ha : 0 < a) (hb : 0 < b) : betaR a b = betaR b a := by
  rw [betaR_eq ha hb, betaR_eq hb ha, mul_comm, add_comm]

theorem ibI_symm (ha : 0 < a) (hb : 0 < b) (h0 : 0 ≤ z) (h1 : z ≤ 1) : ibI a b z = 1 - ibI b a (1 - z) := by
  have hB := betaR_pos ha hb
  have e : ∫ t in (0:ℝ)..(1 - z), t ^ (b - 1) * (1 - t) ^ (a - 1) = ∫ t in z..1, t ^ (a - 1) * (1 - t) ^ (b - 1) := by
    have := intervalIntegral.integral_comp_sub_left (a := z) (b := 1) (fun t : ℝ => t ^ (b - 1) * (1 - t) ^ (a - 1)) 1
    rw [sub_self] at this
    rw [← this]
    refine intervalIntegral.integral_congr fun t _ => ?_
    simp only [sub_sub_cancel]
    ring
  unfold ibI
  rw [e, ← betaR_symm ha hb, eq_sub_iff_add_eq, ← add_div, ib_split ha hb h0 h1, div_self hB.ne']

theorem W_zero_le (ha : 0 < a) (hb : 0 < b) (h0 : 0 < z) (h1 : z < 1) : W a b z 0 ≤ 1 := by
  have hW := W_pos (b := b) ha h0 h1
  rw [W_rec ha h0 h1 0]
  have h2 : al a b z 0 ≤ 0 := by
    have := al_even a b z 0
    rw [mul_zero] at this
    rw [this, neg_nonpos]
    push_cast
    positivity
  have := div_nonpos_of_nonpos_of_nonneg h2 (hW (0 + 1)).le
  linarith

theorem ib_dens (ha : 0 < a) (hb : 0 < b) (h0 : 0 < z) (h1 : z < 1) : z ^ a * (1 - z) ^ b ≤ a * betaR a b := by
  have e := W_zero (b := b) ha h0 h1
  have hW := W_pos (b := b) ha h0 h1 0
  have hW1 := W_zero_le ha hb h0 h1
  have h2 : ∫ t in (0:ℝ)..z, t ^ (a - 1) * (1 - t) ^ (b - 1) ≤ betaR a b := by
    rw [← ib_split ha hb h0.le h1.le]
    linarith [ib_nonneg' (a := a) (b := b) h0.le h1.le le_rfl]
  rw [e] at h2
  have h3 : 1 ≤ 1 / W a b z 0 := by rw [le_div_iff₀ hW]; linarith
  have hp : 0 ≤ z ^ a * (1 - z) ^ b / a :=
    div_nonneg (mul_nonneg (Real.rpow_nonneg h0.le _) (Real.rpow_nonneg (by linarith) _)) ha.le
  have h4 := (mul_le_mul_of_nonneg_left h3 hp).trans h2
  rw [mul_one, div_le_iff₀ ha] at h4
  linarith

theorem ibI_eq (ha : 0 < a) (hb : 0 < b) (h0 : 0 < z) (h1 : z < 1) :
    ibI a b z = Real.exp (a * Real.log z + b * Real.log (1 - z) - Real.log (betaR a b)) / a * (1 / W a b z 0) := by
  have h2 : 0 < 1 - z := by linarith
  unfold ibI
  rw [W_zero ha h0 h1, Real.exp_sub, Real.exp_add, Real.exp_log (betaR_pos ha hb), mul_comm a, mul_comm b, ← Real.rpow_def_of_pos h0,
    ← Real.rpow_def_of_pos h2]
  ring

theorem ib_exponent_le (ha : 0 < a) (hb : 0 < b) (h0 : 0 < z) (h1 : z < 1) :
    a * Real.log z + b * Real.log (1 - z) - Real.log (betaR a b) ≤ Real.log a := by
  have h2 : 0 < 1 - z := by linarith
  have hB := betaR_pos ha hb
  have h3 := ib_dens ha hb h0 h1
  have h4 := Real.log_le_log (by positivity) h3
  rw [Real.log_mul (by positivity) (by positivity), Real.log_mul ha.ne' hB.ne', Real.log_rpow h0, Real.log_rpow h2] at h4
  linarith

theorem logB_bounds (a1 : 1 / 2 ≤ a) (a2 : a ≤ 10) (b1 : 1 / 2 ≤ b) (b2 : b ≤ 10) :
    -17 ≤ Real.log (betaR a b) ∧ Real.log (betaR a b) ≤ 116 / 100 := by
  have ha : 0 < a := by linarith
  have hb : 0 < b := by linarith
  have hB := betaR_pos ha hb
  have l2 := Real.log_two_lt_d9
  constructor
  · have := ib_exponent_le ha hb (z := 1 / 2) (by norm_num) (by norm_num)
    rw [show (1:ℝ) - 1 / 2 = 1 / 2 by norm_num, one_div, Real.log_inv] at this
    have h10 : Real.log a ≤ 4 * Real.log 2 := by
      rw [← Real.log_rpow (by norm_num)]
      exact Real.log_le_log ha (by norm_num; linarith)
    have hl2 := Real.log_two_gt_d9
    nlinarith
  · have h1 := Real.log_le_log hB (betaR_le a1 b1)
    refine h1.trans ?_
    rw [Real.log_le_iff_le_exp Real.pi_pos]
    refine Real.pi_lt_d2.le.trans ?_
    have := Real.quadratic_le_exp_of_nonneg (show (0:ℝ) ≤ 58 / 100 by norm_num)
    have e : Real.exp (116 / 100) = Real.exp (58 / 100) * Real.exp (58 / 100) := by rw [← Real.exp_add]; norm_num
    have h3 := Real.sum_le_exp_of_nonneg (show (0:ℝ) ≤ 116 / 100 by norm_num) 7
    refine le_trans ?_ h3
    norm_num [Finset.sum_range_succ, Nat.factorial]

/-- change of the regularized function away from the end points -/
theorem ibI_lipschitz (ha : 0 < a) (hb : 0 < b) (a2 : a ≤ 10) {x y : ℝ} (hx : 2 / 5 ≤ x) (hxy : x ≤ y) (hy : y ≤ 9 / 10) :
    ibI a b x ≤ ibI a b y ∧ ibI a b y - ibI a b x ≤ 112 * (y - x) := by
  have hB := betaR_pos ha hb
  have e : (∫ t in (0:ℝ)..x, t ^ (a - 1) * (1 - t) ^ (b - 1)) + ∫ t in x..y, t ^ (a - 1) * (1 - t) ^ (b - 1) =
      ∫ t in (0:ℝ)..y, t ^ (a - 1) * (1 - t) ^ (b - 1) :=
    intervalIntegral.integral_add_adjacent_intervals (ib_integrable ha hb le_rfl (by linarith) (by linarith))
      (ib_integrable ha hb (by linarith) hxy (by linarith))
  have h0 := ib_nonneg' (a := a) (b := b) (by linarith : 0 ≤ x) hxy (by linarith)
  have h1 : ∫ t in x..y, t ^ (a - 1) * (1 - t) ^ (b - 1) ≤ ∫ _t in x..y, 112 * betaR a b := by
    refine intervalIntegral.integral_mono_on hxy (ib_integrable ha hb (by linarith) hxy (by linarith)) intervalIntegrable_const fun t ht => ?_
    have t0 : 0 < t := by linarith [ht.1]
    have t1 : 0 < 1 - t := by linarith [ht.2]
    rw [Real.rpow_sub_one t0.ne', Real.rpow_sub_one t1.ne', div_mul_div_comm, div_le_iff₀ (by positivity)]
    refine (ib_dens ha hb t0 (by linarith)).trans ?_
    have h2 : 9 / 100 ≤ t * (1 - t) := by nlinarith [ht.1, ht.2]
    have h3 : a * betaR a b ≤ 10 * betaR a b := mul_le_mul_of_nonneg_right a2 hB.le
    nlinarith
  rw [intervalIntegral.integral_const, smul_eq_mul] at h1
  unfold ibI
  constructor
  · rw [div_le_div_iff_of_pos_right hB]; linarith
  · rw [← sub_div, div_le_iff₀ hB, ← e]
    linarith

end real

/-! ### the factor before the continued fraction -/

theorem ib_not_ten {w : ℚ} (h1 : 11 / 100 ≤ w) (h2 : w < 1 / 2) (e : ℤ) : 1 / 10000 * (10:ℚ) ^ e < |w - 10 ^ e| := by
  have hp : (0:ℚ) < 10 ^ e := by positivity
  rcases le_or_gt 0 e with h | h
  · have : (1:ℚ) ≤ 10 ^ e := one_le_zpow₀ (by norm_num) h
    rw [abs_of_neg (by linarith)]
    linarith
  · have : (10:ℚ) ^ e ≤ 10 ^ (-1:ℤ) := zpow_le_zpow_right₀ (by norm_num) (by omega)
    norm_num at this
    rw [abs_of_pos (by linarith)]
    linarith

theorem ib_log (hf : f.exact = false) {z : ℚ} {wz : Bool} (hx : Valid (fin z wz : FV f)) (z1 : 1 / 2 ^ 100 ≤ z)
    (ht : z < 1 / 2 → ∀ e : ℤ, 1 / 10000 * (10:ℚ) ^ e < |z - 10 ^ e|) :
    ∃ r w, log (fin z wz : FV f) = .ok (fin r w) ∧ |(r:ℝ) - Real.log z| ≤ (40 + 5 * |Real.log z|) * uro f := by
  have hu := uro_pos_real f
  rcases lt_or_ge z (1 / 2) with h | h
  · obtain ⟨r, w, j, e, b, -, hj⟩ := C37_small hf z wz hx ((minNormal_le' f).trans (le_trans (by norm_num) z1)) h
    rw [hj (ht h), ← uro_eq] at b
    push_cast at b
    rw [zero_mul, add_zero] at b
    exact ⟨r, w, e, b⟩
  · obtain ⟨r, w, e, b⟩ := log_half hf z wz hx h
    refine ⟨r, w, e, b.trans (mul_le_mul_of_nonneg_right (by linarith) hu.le)⟩

theorem ib_log1 (hf : f.exact = false) {z : ℚ} {wz : Bool} (hx : Valid (fin z wz : FV f)) (z0 : 0 < z) (hz : z ≤ 888 / 1000) :
    ∃ v : FV f, ∃ r, log (i 1 - (fin z wz : FV f)) = .ok v ∧ Is v r ∧ |(r:ℝ) - Real.log (1 - z)| ≤ 56 * uro f := by
  have hu := uro_pos_real f
  have hu7 := uro7_real f
  have hz0 : (0:ℝ) < z := by exact_mod_cast z0
  have hz' : (z:ℝ) ≤ 888 / 1000 := by
    have := (Rat.cast_le (K := ℝ)).2 hz
    push_cast at this; exact this
  have iw := (is_one (f := f)).sub (is_fin z wz) (nov (by rw [abs_of_pos (by linarith)]; norm_num; linarith))
  have hv : Valid (i 1 - fin z wz : FV f) := valid_sub _ _
  have e1 := rnd_add_real (f := f) rep_one' hx.rep.neg
  rw [← sub_eq_add_neg, Rat.cast_neg, ← sub_eq_add_neg, Rat.cast_one, abs_of_pos (show (0:ℝ) < 1 - z by linarith)] at e1
  have hw1 : rnd f (1 - z) ≤ 1 := rnd_le_of_rep rep_one' (by linarith)
  generalize rnd f (1 - z) = w at *
  obtain ⟨s, iw⟩ := iw
  rw [iw] at hv ⊢
  have e2 := abs_le.1 e1
  have hu2 : (uro f : ℝ) * (1 - z) ≤ 1 / 10 ^ 7 * (1 - z) := mul_le_mul_of_nonneg_right hu7 (by linarith)
  norm_num only at hu2 hu7
  have hwl : (11 / 100 : ℝ) ≤ w := by linarith [e2.1]
  have hwl' : 11 / 100 ≤ w := by
    have : ((11 / 100 : ℚ):ℝ) ≤ w := by push_cast; exact hwl
    exact_mod_cast this
  have hw0 : (0:ℝ) < w := by linarith
  obtain ⟨r, t, el, b⟩ := ib_log hf hv (le_trans (by norm_num) hwl') (fun h e => ib_not_ten hwl' h e)
  refine ⟨_, r, el, is_fin r t, ?_⟩
  have hlw : |Real.log w| ≤ 278 / 100 := by
    rw [abs_of_nonpos (Real.log_nonpos hw0.le (by exact_mod_cast hw1)), ← Real.log_inv]
    have h1 : Real.log (w:ℝ)⁻¹ ≤ Real.log (2 ^ 4) := by
      refine Real.log_le_log (by positivity) ?_
      rw [inv_le_comm₀ hw0 (by norm_num)]
      norm_num; linarith
    rw [Real.log_pow] at h1
    have := Real.log_two_lt_d9
    push_cast at h1
    linarith
  have hd : |Real.log w - Real.log (1 - z)| ≤ 101 / 100 * uro f := by
    have h1z : (0:ℝ) < 1 - z := by linarith
    rw [← Real.log_div hw0.ne' h1z.ne']
    set y : ℝ := w / (1 - z) with hy
    have hyb : |y - 1| ≤ uro f := by
      rw [hy, div_sub_one h1z.ne', abs_div, abs_of_pos h1z, div_le_iff₀ h1z]
      exact e1
    have hy0 : 0 < y := by positivity
    have hyc := abs_le.1 hyb
    have k1 := Real.log_le_sub_one_of_pos hy0
    have k2 := Real.one_sub_inv_le_log_of_pos hy0
    have k3 : -(101 / 100 * (uro f : ℝ)) ≤ 1 - y⁻¹ := by
      rw [le_sub_comm, inv_le_iff_one_le_mul₀ hy0]
      nlinarith
    rw [abs_le]
    constructor <;> linarith [hyc.2]
  have := abs_sub_le (r:ℝ) (Real.log w) (Real.log (1 - z))
  have h2 := mul_le_mul_of_nonneg_right hlw hu.le
  linarith

theorem ib_lbeta (hf : f.exact = false) {a b : ℚ} {wa wb : Bool} (ha : Valid (fin a wa : FV f)) (hb : Valid (fin b wb : FV f))
    (a1 : 1 / 2 ≤ a) (a2 : a ≤ 10) (b1 : 1 / 2 ≤ b) (b2 : b ≤ 10) :
    ∃ r w, lbeta (fin a wa : FV f) (fin b wb) = .ok (fin r w) ∧ Valid (fin r w : FV f) ∧
      |(r:ℝ) - Real.log (betaR a b)| ≤ 3750 * uro f + 54 / 10 ^ 15 := by
  obtain ⟨r, w, e, v, h⟩ := lbeta_core hf a b wa wb ha hb a1 (a2.trans (by norm_num)) b1 (b2.trans (by norm_num))
  have a1' : (0:ℝ) < a := by exact_mod_cast (by linarith : 0 < a)
  have b1' : (0:ℝ) < b := by exact_mod_cast (by linarith : 0 < b)
  have a2' : (a:ℝ) ≤ 10 := by exact_mod_cast a2
  have b2' : (b:ℝ) ≤ 10 := by exact_mod_cast b2
  rw [logBeta_eq a1' b1'] at h
  refine ⟨r, w, e, v, h.trans ?_⟩
  have hu := uro_pos_real f
  rw [div_eq_mul_one_div, ← uro_eq]
  have l1 : Real.log (a + b + 6) ≤ 3466 / 1000 := by
    have h1 : Real.log (a + b + 6) ≤ Real.log (2 ^ 5) := Real.log_le_log (by positivity) (by norm_num; linarith)
    rw [Real.log_pow] at h1
    have := Real.log_two_lt_d9
    push_cast at h1
    linarith
  have l0 : 0 ≤ Real.log (a + b + 6) := Real.log_nonneg (by linarith)
  have l2 : 49 * ((a:ℝ) + b) * Real.log (a + b + 6) ≤ 49 * 20 * (3466 / 1000) :=
    mul_le_mul (by linarith) l1 l0 (by norm_num)
  have := mul_le_mul_of_nonneg_right (show 335 + 49 * ((a:ℝ) + b) * Real.log (a + b + 6) ≤ 3750 by linarith) hu.le
  linarith

/-- error of the exponent -/
theorem ib_exponent {u a b x y B l k m1 m2 s e r : ℝ} (hu : 0 < u) (hu7 : u ≤ 1 / 16777216) (a0 : 0 < a) (a2 : a ≤ 10) (b0 : 0 < b) (b2 : b ≤ 10)
    (hx : |x| ≤ 70) (hy : |b * y| ≤ 12) (hB : |B| ≤ 17)
    (hl : |l - x| ≤ (40 + 5 * |x|) * u) (hk : |k - y| ≤ 56 * u) (hr : |r - B| ≤ 3750 * u + 54 / 10 ^ 15)
    (h1 : |m1 - a * l| ≤ u * |a * l| + u / 1000) (h2 : |m2 - b * k| ≤ u * |b * k| + u / 1000)
    (h3 : |s - (m1 + m2)| ≤ u * |m1 + m2|) (h4 : |e - (s - r)| ≤ u * |s - r|) :
    |e - (a * x + b * y - B)| ≤ (4900 + 8 * (a * |x|)) * u + 54 / 10 ^ 15 := by
  set Λ := |x| with hΛ
  have hΛ0 : 0 ≤ Λ := abs_nonneg x
  have haΛ : a * Λ ≤ 700 := by
    have := mul_le_mul a2 hx hΛ0 (by norm_num : (0:ℝ) ≤ 10)
    linarith
  have hax : |a * x| = a * Λ := by rw [abs_mul, abs_of_pos a0]
  have huΛ : Λ * u ≤ 70 * u := mul_le_mul_of_nonneg_right hx hu.le
  have d1 : |a * l - a * x| ≤ (400 + 5 * (a * Λ)) * u := by
    rw [← mul_sub, abs_mul, abs_of_pos a0]
    have := mul_le_mul_of_nonneg_left hl a0.le
    have h5 : a * u ≤ 10 * u := mul_le_mul_of_nonneg_right a2 hu.le
    linarith
  have haΛu : a * Λ * u ≤ 700 * u := mul_le_mul_of_nonneg_right haΛ hu.le
  have aΛ0 : 0 ≤ a * Λ := by positivity
  have aΛu0 : 0 ≤ a * Λ * u := by positivity
  have n1 : |a * l| ≤ a * Λ + 1 / 1000 := by
    have := abs_add_le (a * l - a * x) (a * x)
    rw [sub_add_cancel, hax] at this
    linarith
  have n1u := mul_le_mul_of_nonneg_left n1 hu.le
  have e1 : |m1 - a * x| ≤ (401 + 6 * (a * Λ)) * u := by
    have := abs_sub_le m1 (a * l) (a * x)
    linarith
  have d2 : |b * k - b * y| ≤ 560 * u := by
    rw [← mul_sub, abs_mul, abs_of_pos b0]
    have := mul_le_mul b2 hk (abs_nonneg _) (by norm_num : (0:ℝ) ≤ 10)
    linarith
  have n2 : |b * k| ≤ 121 / 10 := by
    have := abs_add_le (b * k - b * y) (b * y)
    rw [sub_add_cancel] at this
    linarith
  have n2u := mul_le_mul_of_nonneg_left n2 hu.le
  have e2 : |m2 - b * y| ≤ 573 * u := by
    have := abs_sub_le m2 (b * k) (b * y)
    linarith
  have e3 : |m1 + m2 - (a * x + b * y)| ≤ (974 + 6 * (a * Λ)) * u := by
    have := abs_add_le (m1 - a * x) (m2 - b * y)
    rw [show m1 - a * x + (m2 - b * y) = m1 + m2 - (a * x + b * y) by ring] at this
    linarith
  have n3 : |a * x + b * y| ≤ a * Λ + 12 := by
    have := abs_add_le (a * x) (b * y)
    linarith
  have n4 : |m1 + m2| ≤ a * Λ + 13 := by
    have := abs_add_le (m1 + m2 - (a * x + b * y)) (a * x + b * y)
    rw [sub_add_cancel] at this
    linarith
  have n4u := mul_le_mul_of_nonneg_left n4 hu.le
  have e4 : |s - (a * x + b * y)| ≤ (987 + 7 * (a * Λ)) * u := by
    have := abs_sub_le s (m1 + m2) (a * x + b * y)
    linarith
  have e5 : |s - r - (a * x + b * y - B)| ≤ (4737 + 7 * (a * Λ)) * u + 54 / 10 ^ 15 := by
    have := abs_sub (s - (a * x + b * y)) (r - B)
    rw [show s - (a * x + b * y) - (r - B) = s - r - (a * x + b * y - B) by ring] at this
    linarith
  have n5 : |s - r| ≤ a * Λ + 31 := by
    have h5 := abs_add_le (s - r - (a * x + b * y - B)) (a * x + b * y - B)
    rw [sub_add_cancel] at h5
    have h6 := abs_sub (a * x + b * y) B
    have h7 : (54:ℝ) / 10 ^ 15 ≤ 1 / 100 := by norm_num
    linarith
  have n5u := mul_le_mul_of_nonneg_left n5 hu.le
  have := abs_sub_le e (s - r) (a * x + b * y - B)
  linarith

theorem ib_round_rel {u w p P s : ℝ} (hu : 0 ≤ u) (hP : 0 < P) (h : |p - P| ≤ s * P) (hw : |w - p| ≤ u * |p|) : |w - P| ≤ (s + u + s * u) * P := by
  have h1 : |p| ≤ s * P + P := by
    have := abs_add_le (p - P) P
    rw [sub_add_cancel, abs_of_pos hP] at this
    linarith
  have h2 := mul_le_mul_of_nonneg_left h1 hu
  have h3 := abs_sub_le w p P
  linarith

theorem ib_mul_rel {x X y Y s t : ℝ} (hX : 0 < X) (hY : 0 < Y) (hx : |x - X| ≤ s * X) (hy : |y - Y| ≤ t * Y) :
    |x * y - X * Y| ≤ (s + t + s * t) * (X * Y) := by
  rw [show x * y - X * Y = (x - X) * Y + X * (y - Y) + (x - X) * (y - Y) by ring]
  refine (abs_add_three _ _ _).trans ?_
  rw [abs_mul, abs_mul, abs_mul, abs_of_pos hX, abs_of_pos hY]
  have h1 := mul_le_mul_of_nonneg_right hx hY.le
  have h2 := mul_le_mul_of_nonneg_left hy hX.le
  have h3 := mul_le_mul hx hy (abs_nonneg _) ((abs_nonneg _).trans hx)
  linarith

theorem ib_comb {u r R a q v F w ε η : ℝ} (hu : 0 < u) (hu7 : u ≤ 1 / 10 ^ 7) (ha : 0 < a) (hR : 0 < R) (hF : 0 < F) (hε0 : 0 ≤ ε) (hε : ε ≤ 1 / 1000)
    (hη0 : 0 ≤ η) (hη : η ≤ 1 / 1000) (hr : |r - R| ≤ ε * R) (hq : |q - r / a| ≤ u * |r / a|) (hv : |v - F| ≤ η * F) (hw : |w - q * v| ≤ u * |q * v|) :
    |w - R / a * F| ≤ 1003 / 1000 * (ε + η + 2 * u) * (R / a * F) := by
  have h1 : |r / a - R / a| ≤ ε * (R / a) := by
    rw [← sub_div, abs_div, abs_of_pos ha, ← mul_div_assoc]
    gcongr
  have hRa : 0 < R / a := by positivity
  have h2 := ib_round_rel hu.le hRa h1 hq
  have h3 := ib_mul_rel hRa hF h2 hv
  have h4 := ib_round_rel hu.le (by positivity) h3 hw
  refine h4.trans (mul_le_mul_of_nonneg_right ?_ (by positivity))
  have k1 : ε * u ≤ 1 / 1000 * u := mul_le_mul_of_nonneg_right hε hu.le
  have k1' : 0 ≤ ε * u := by positivity
  have k2 : (ε + u + ε * u) * η ≤ (1 / 1000 + 1 / 1000 + 1 / 1000) * η := by
    refine mul_le_mul_of_nonneg_right ?_ hη0
    norm_num at hu7 k1 ⊢
    linarith
  have k3 : (ε + u + ε * u) * η ≤ (ε + u + ε * u) * (1 / 1000) := mul_le_mul_of_nonneg_left hη (by positivity)
  have k4 : (ε + u + ε * u + η + (ε + u + ε * u) * η) * u ≤ 1 / 100 * u := by
    refine mul_le_mul_of_nonneg_right ?_ hu.le
    norm_num at hu7 k1 k3 ⊢
    linarith
  nlinarith

theorem rnd_abs_int {q : ℚ} (n : ℕ) (hn : n ≤ 2 ^ 24) (h : |q| ≤ n) : |rnd f q| ≤ n := by
  have r : Rep f (n:ℚ) := by
    have := rep_int (f := f) (n := n) (by have := two_pow_prec f; rw [abs_le]; constructor <;> omega)
    push_cast at this; exact this
  rw [abs_le] at h ⊢
  exact ⟨le_rnd_of_rep r.neg h.1, rnd_le_of_rep r h.2⟩

/-- evaluation of the exponent -/
theorem ib_exp_arg {a b l k r : ℚ} {wa wb wl wr : Bool} {v : FV f} (a0 : 0 < a) (a2 : a ≤ 10) (b0 : 0 < b) (b2 : b ≤ 10) (hl : |l| ≤ 100) (ik : Is v k) (hk : |k| ≤ 100)
    (hr : |r| ≤ 100) (hrr : Rep f r) :
    ∃ e w, (fin a wa : FV f) * fin l wl + fin b wb * v - fin r wr = fin e w ∧ Valid (fin e w : FV f) ∧
      ∃ m1 m2 s : ℚ, |(m1:ℝ) - a * l| ≤ uro f * |(a * l : ℝ)| + uro f / 1000 ∧ |(m2:ℝ) - b * k| ≤ uro f * |(b * k : ℝ)| + uro f / 1000 ∧
        |(s:ℝ) - (m1 + m2)| ≤ uro f * |(m1 + m2 : ℝ)| ∧ |(e:ℝ) - (s - r)| ≤ uro f * |(s - r : ℝ)| := by
  have h1 : |a * l| ≤ 10 * 100 := by rw [abs_mul, abs_of_pos a0]; exact mul_le_mul a2 hl (abs_nonneg _) (by norm_num)
  have h2 : |b * k| ≤ 10 * 100 := by rw [abs_mul, abs_of_pos b0]; exact mul_le_mul b2 hk (abs_nonneg _) (by norm_num)
  have n1 := rnd_abs_int (f := f) (q := a * l) 1000 (by norm_num) (by norm_num at h1 ⊢; exact h1)
  have n2 := rnd_abs_int (f := f) (q := b * k) 1000 (by norm_num) (by norm_num at h2 ⊢; exact h2)
  have i1 := (is_fin (f := f) a wa).mul (is_fin l wl) (nov (h1.trans (by norm_num)))
  have i2 := (is_fin (f := f) b wb).mul ik (nov (h2.trans (by norm_num)))
  have e1 := rnd_all_real f (a * l)
  have e2 := rnd_all_real f (b * k)
  have p1 := rep_rnd f (a * l)
  have p2 := rep_rnd f (b * k)
  generalize rnd f (a * l) = m1 at *
  generalize rnd f (b * k) = m2 at *
  have h3 : |m1 + m2| ≤ 2000 := by
    refine (abs_add_le _ _).trans ?_
    push_cast at n1 n2
    linarith
  have i3 := i1.add i2 (nov (h3.trans (by norm_num)))
  have n3 := rnd_abs_int (f := f) (q := m1 + m2) 2000 (by norm_num) (by push_cast; exact h3)
  have e3 := rnd_add_real p1 p2
  have p3 := rep_rnd f (m1 + m2)
  generalize rnd f (m1 + m2) = s at *
  have h4 : |s - r| ≤ 2100 := by
    refine (abs_sub _ _).trans ?_
    push_cast at n3
    linarith
  have i4 := i3.sub (is_fin r wr) (nov (h4.trans (by norm_num)))
  have e4 := rnd_add_real p3 hrr.neg
  rw [← sub_eq_add_neg, Rat.cast_neg, ← sub_eq_add_neg] at e4
  obtain ⟨w, i4⟩ := i4
  refine ⟨_, w, i4, ?_, m1, m2, s, ?_, ?_, e3, e4⟩
  · rw [← i4]; exact valid_sub _ _
  · push_cast at e1; exact e1
  · push_cast at e2; exact e2

/-- the two operations after the exponential -/
theorem ib_after {a q g : ℚ} {wa : Bool} {G : FV f} {R F ε η : ℝ} (a0 : 0 < a) (a2 : (a:ℝ) ≤ 10) (ig : Is G g) (q0 : 0 < q) (hR1 : 31 * (minNormal f : ℝ) ≤ R) (hE3 : R ≤ 64)
    (hF1 : 1 ≤ F) (hI1 : R / a * F ≤ 1) (hε0 : 0 ≤ ε) (hε1 : ε ≤ 1 / 1000) (hη0 : 0 ≤ η) (hη1 : η ≤ 1 / 1000)
    (bq : |(q:ℝ) - R| ≤ ε * R) (bg : |(g:ℝ) - F| ≤ η * F) (a1' : (1 / 2 : ℝ) ≤ a) :
    ∃ y w, (fin q false : FV f) / fin a wa * G = fin y w ∧ |(y:ℝ) - R / a * F| ≤ 1003 / 1000 * (ε + η + 2 * uro f) * (R / a * F) := by
  have hu := uro_pos_real f
  have hu7 := uro7_real f
  have hmn : (0:ℝ) < minNormal f := by exact_mod_cast minNormal_pos f
  have hR : 0 < R := by linarith
  have hF : 0 < F := by linarith
  have a0' : (0:ℝ) < a := by linarith
  have hq0 : (0:ℝ) < q := by exact_mod_cast q0
  have bq2 := abs_le.1 (bq.trans (mul_le_mul_of_nonneg_right hε1 hR.le))
  have hqa : 3 * (minNormal f : ℝ) ≤ q / a := by
    rw [le_div_iff₀ a0']
    have : 3 * (minNormal f : ℝ) * a ≤ 3 * (minNormal f : ℝ) * 10 := by gcongr
    linarith [bq2.1]
  have hqa0 : (0:ℝ) < q / a := by positivity
  have hqa2 : (q:ℝ) / a ≤ 2 ^ 20 := by
    rw [div_le_iff₀ a0']
    norm_num
    linarith [bq2.2]
  have iq := (is_fin (f := f) q false).div (is_fin a wa) a0.ne' (nov (rat_abs_le (by
    push_cast; rw [abs_of_pos hqa0]; exact hqa2.trans (by norm_num))))
  have eqa : |((rnd f (q / a) : ℚ):ℝ) - (q / a : ℝ)| ≤ uro f * |(q / a : ℝ)| := by
    have := (Rat.cast_le (K := ℝ)).2 (rnd_err_rel (f := f) (q := q / a) (by
      have h1 : (minNormal f : ℝ) ≤ |(((q / a : ℚ)) : ℝ)| := by push_cast; rw [abs_of_pos hqa0]; linarith
      exact rat_le_abs h1))
    push_cast at this; exact this
  generalize rnd f (q / a) = p at *
  have hpb := abs_le.1 eqa
  rw [abs_of_pos hqa0] at hpb
  have hup : (uro f : ℝ) * (q / a) ≤ 1 / 10 * (q / a) := mul_le_mul_of_nonneg_right (hu7.trans (by norm_num)) hqa0.le
  have hp1 : 27 / 10 * (minNormal f : ℝ) ≤ p := by linarith [hpb.1]
  have hg := abs_le.1 (bg.trans (mul_le_mul_of_nonneg_right hη1 hF.le))
  have hg1 : 9 / 10 ≤ (g:ℝ) := by linarith [hg.1]
  have hpg : 2 * (minNormal f : ℝ) ≤ p * g := by
    have : 27 / 10 * (minNormal f : ℝ) * (9 / 10) ≤ p * g := mul_le_mul hp1 hg1 (by norm_num) (by linarith)
    linarith
  have hpg0 : (0:ℝ) < p * g := by linarith
  have hpg2 : (p:ℝ) * g ≤ 2 := by
    have h1 : (p:ℝ) ≤ 1002 / 1000 * (R / a) := by
      have h2 : (q:ℝ) / a ≤ 1001 / 1000 * (R / a) := by
        rw [← mul_div_assoc]
        gcongr
        linarith [bq2.2]
      have h3 : (uro f : ℝ) * (q / a) ≤ 1 / 10000 * (q / a) := mul_le_mul_of_nonneg_right (hu7.trans (by norm_num)) hqa0.le
      have h4 : 0 < R / a := by positivity
      linarith [hpb.2]
    have h2 : (g:ℝ) ≤ 1001 / 1000 * (F) := by linarith [hg.2]
    have h3 := mul_le_mul h1 h2 (by linarith) (by positivity)
    rw [show 1002 / 1000 * (R / a) * (1001 / 1000 * (F)) = 1002 / 1000 * (1001 / 1000) * (R / a * (F)) by ring] at h3
    linarith
  have iw := iq.mul ig (nov (rat_abs_le (by
    push_cast; rw [abs_of_pos hpg0]; exact hpg2.trans (by norm_num))))
  have ew : |((rnd f (p * g) : ℚ):ℝ) - (p * g : ℝ)| ≤ uro f * |(p * g : ℝ)| := by
    have := (Rat.cast_le (K := ℝ)).2 (rnd_err_rel (f := f) (q := p * g) (by
      have h1 : (minNormal f : ℝ) ≤ |(((p * g : ℚ)) : ℝ)| := by push_cast; rw [abs_of_pos hpg0]; linarith
      exact rat_le_abs h1))
    push_cast at this; exact this
  generalize rnd f (p * g) = y at *
  obtain ⟨ww, iw⟩ := iw
  exact ⟨y, ww, iw, ib_comb hu hu7 a0' hR hF hε0 hε1 hη0 hη1 bq eqa bg ew⟩

/-- `incomplete_beta_begin`, relative to the exact function -/
theorem ib_begin (hf : f.exact = false) {a b z : ℚ} {wa wb wz : Bool} (ha : Valid (fin a wa : FV f)) (hb : Valid (fin b wb : FV f)) (hzv : Valid (fin z wz : FV f))
    (a1 : 1 / 2 ≤ a) (a2 : a ≤ 10) (b1 : 1 / 2 ≤ b) (b2 : b ≤ 10) (z1 : 1 / 2 ^ 100 ≤ z) (z2 : z < 1)
    (hz : z * (a + b + 2) ≤ 100001 / 100000 * (a + 1))
    (ht : z < 1 / 2 → ∀ e : ℤ, 1 / 10000 * (10:ℚ) ^ e < |z - 10 ^ e|)
    (hlow : 16 - expMin f.ty ≤ a * Real.log z) :
    ∃ r w, incomplete_beta_begin (fin a wa : FV f) (fin b wb) (fin z wz) = .ok (fin r w) ∧
      |(r:ℝ) - ibI a b z| ≤ ((15000 + 13 * (a * |Real.log z|)) * uro f + 2 / 10 ^ 13) * ibI a b z := by
  have hu := uro_pos_real f
  have hu7 := uro7_real f
  have hu24 := uro_le f
  have z0 : 0 < z := lt_of_lt_of_le (by norm_num) z1
  have z0' : (0:ℝ) < z := by exact_mod_cast z0
  have z2' : (z:ℝ) < 1 := by exact_mod_cast z2
  have a0 : 0 < a := by linarith
  have b0 : 0 < b := by linarith
  have a0' : (0:ℝ) < a := by exact_mod_cast a0
  have b0' : (0:ℝ) < b := by exact_mod_cast b0
  have a2' : (a:ℝ) ≤ 10 := by exact_mod_cast a2
  have b2' : (b:ℝ) ≤ 10 := by exact_mod_cast b2
  have a1' : (1 / 2 : ℝ) ≤ a := by
    have := (Rat.cast_le (K := ℝ)).2 a1
    push_cast at this; exact this
  have b1' : (1 / 2 : ℝ) ≤ b := by
    have := (Rat.cast_le (K := ℝ)).2 b1
    push_cast at this; exact this
  have hz' : z ≤ 888 / 1000 := by
    by_contra hcon
    push Not at hcon
    nlinarith
  have hzr : (z:ℝ) * (a + b + 2) ≤ 100001 / 100000 * (a + 1) := by
    have := (Rat.cast_le (K := ℝ)).2 hz
    push_cast at this; exact this
  have hz'r : (z:ℝ) ≤ 888 / 1000 := by
    have := (Rat.cast_le (K := ℝ)).2 hz'
    push_cast at this; exact this
  obtain ⟨l, wl, el, bl⟩ := ib_log hf hzv z1 ht
  obtain ⟨v, k, ek, ik, bk⟩ := ib_log1 hf hzv z0 hz'
  obtain ⟨r, wr, er, vr, br⟩ := ib_lbeta hf ha hb a1 a2 b1 b2
  obtain ⟨g1, g2⟩ := logB_bounds a1' a2' b1' b2'
  have hx70 : |Real.log z| ≤ 70 := by
    rw [abs_of_nonpos (Real.log_nonpos z0'.le z2'.le), ← Real.log_inv]
    have h1 : Real.log (z:ℝ)⁻¹ ≤ Real.log (2 ^ 100) := by
      refine Real.log_le_log (by positivity) ?_
      rw [inv_le_comm₀ z0' (by norm_num)]
      have := (Rat.cast_le (K := ℝ)).2 z1
      push_cast at this
      rw [one_div] at this
      exact this
    rw [Real.log_pow] at h1
    have := Real.log_two_lt_d9
    push_cast at h1
    linarith
  have h1z : (0:ℝ) < 1 - z := by linarith
  have hy0 : Real.log (1 - z) ≤ 0 := Real.log_nonpos h1z.le (by linarith)
  have hy3 : -(z / (1 - z)) ≤ Real.log (1 - z) := by
    have := Real.one_sub_inv_le_log_of_pos h1z
    refine le_trans (le_of_eq ?_) this
    field_simp; ring
  have hby : -12 ≤ b * Real.log (1 - z) := by
    have h1 := mul_le_mul_of_nonneg_left hy3 b0'.le
    have h2 : (b:ℝ) * (z / (1 - z)) ≤ 12 := by
      rw [← mul_div_assoc, div_le_iff₀ h1z]
      nlinarith
    linarith
  have hyabs : |Real.log (1 - z)| ≤ 24 := by
    rw [abs_of_nonpos hy0]
    nlinarith
  have hby' : |b * Real.log (1 - z)| ≤ 12 := by
    rw [abs_of_nonpos (mul_nonpos_of_nonneg_of_nonpos b0'.le hy0)]; linarith
  have hB17 : |Real.log (betaR a b)| ≤ 17 := by rw [abs_le]; constructor <;> linarith
  have hxu : |Real.log z| * uro f ≤ 70 * uro f := mul_le_mul_of_nonneg_right hx70 hu.le
  have hl100 : |l| ≤ 100 := rat_abs_le (by
    have := abs_add_le ((l:ℝ) - Real.log z) (Real.log z)
    rw [sub_add_cancel] at this
    push_cast
    linarith)
  have hk100 : |k| ≤ 100 := rat_abs_le (by
    have := abs_add_le ((k:ℝ) - Real.log (1 - z)) (Real.log (1 - z))
    rw [sub_add_cancel] at this
    push_cast
    linarith)
  have hr100 : |r| ≤ 100 := rat_abs_le (by
    have := abs_add_le ((r:ℝ) - Real.log (betaR a b)) (Real.log (betaR a b))
    rw [sub_add_cancel] at this
    push_cast
    norm_num at br
    linarith)
  obtain ⟨e, we, ee, ve, m1, m2, s, q1, q2, q3, q4⟩ := ib_exp_arg (f := f) (wa := wa) (wb := wb) (wl := wl) (wr := wr) a0 a2 b0 b2 hl100 ik hk100 hr100 vr.rep
  have hX := ib_exponent hu hu24 a0' a2' b0' b2' hx70 hby' hB17 bl bk br q1 q2 q3 q4
  have aΛ : a * |Real.log z| ≤ 700 := by
    have := mul_le_mul a2' hx70 (abs_nonneg _) (by norm_num : (0:ℝ) ≤ 10)
    linarith
  have aΛ0 : 0 ≤ a * |Real.log z| := by positivity
  have haL : a * Real.log z = -(a * |Real.log z|) := by
    rw [abs_of_nonpos (Real.log_nonpos z0'.le z2'.le)]; ring
  set X := a * Real.log z + b * Real.log (1 - z) - Real.log (betaR a b) with hXd
  have hXle : X ≤ 3 := by
    have h1 := ib_exponent_le a0' b0' z0' z2'
    have h2 : Real.log a ≤ 4 * Real.log 2 := by
      rw [← Real.log_rpow (by norm_num)]
      exact Real.log_le_log a0' (by norm_num; linarith)
    have := Real.log_two_lt_d9
    linarith
  have hXge : 28 / 10 - expMin f.ty ≤ X := by rw [hXd]; linarith
  have hXabs : |X| ≤ a * |Real.log z| + 29 := by
    rw [abs_le]
    constructor
    · rw [hXd, haL]; linarith
    · linarith
  have aΛu : a * |Real.log z| * uro f ≤ 700 * uro f := mul_le_mul_of_nonneg_right aΛ hu.le
  have aΛu0 : 0 ≤ a * |Real.log z| * uro f := by positivity
  set D : ℝ := (4900 + 8 * (a * |Real.log z|)) * uro f + 54 / 10 ^ 15 with hD
  have hD1 : D ≤ 1 / 1000 := by
    rw [hD]
    have : (54:ℝ) / 10 ^ 15 ≤ 1 / 10 ^ 5 := by norm_num
    norm_num at this ⊢
    linarith
  have hM := expMin_ge f.ty
  have hMM := expMin_le f.ty
  obtain ⟨q, eq, q0, bq⟩ := exp_of_lgamma hf ve hD1 hX (by linarith) (by linarith)
  obtain ⟨g, ig, bg⟩ := ib_cf (wa := wa) (wb := wb) (wz := wz) hb a1 a2 b1 b2 z1 z2 hz
  have hW := W_pos (b := (b:ℝ)) a0' z0' z2' 0
  have hF : 0 < 1 / W a b z 0 := by positivity
  have hF1 : 1 ≤ 1 / W a b z 0 := by rw [le_div_iff₀ hW]; linarith [W_zero_le a0' b0' z0' z2']
  have hEX := Real.exp_pos X
  set ε : ℝ := (1333 / 10 + 402 / 100 * |X|) * uro f + 1002 / 1000 * D with hε
  have hXu : |X| * uro f ≤ (a * |Real.log z| + 29) * uro f := mul_le_mul_of_nonneg_right hXabs hu.le
  have hε2 : ε ≤ (5165 + 1204 / 100 * (a * |Real.log z|)) * uro f + 55 / 10 ^ 15 := by
    rw [hε, hD]
    norm_num at hXu ⊢
    linarith
  have hε0 : 0 ≤ ε := by rw [hε, hD]; positivity
  have hε1 : ε ≤ 1 / 1000 := by
    refine hε2.trans ?_
    norm_num at aΛu hu24 ⊢
    linarith
  have hη1 : 9500 * (uro f : ℝ) + 5 / 10 ^ 14 ≤ 1 / 1000 := by
    norm_num at hu24 ⊢
    linarith
  have hI := ibI_eq a0' b0' z0' z2'
  have hI1 := ibI_le_one a0' b0' z0'.le z2'.le
  rw [← hXd] at hI
  have hmn : (0:ℝ) < minNormal f := by exact_mod_cast minNormal_pos f
  have hEb : 31 * (minNormal f : ℝ) ≤ Real.exp X := by
    have h1 := le_exp_of (f := f) (y := X - 38 / 10) (by linarith)
    have h2 : 29 ≤ Real.exp (38 / 10) := by
      have h3 := Real.sum_le_exp_of_nonneg (show (0:ℝ) ≤ 38 / 10 by norm_num) 6
      refine le_trans ?_ h3
      norm_num [Finset.sum_range_succ, Nat.factorial]
    have h4 : Real.exp X = Real.exp (X - 38 / 10) * Real.exp (38 / 10) := by rw [← Real.exp_add]; congr 1; ring
    rw [h4]
    have := mul_le_mul h1 h2 (by norm_num) (Real.exp_pos _).le
    linarith
  have hE3 : Real.exp X ≤ 64 := by
    have h1 : Real.exp X ≤ Real.exp 3 := Real.exp_le_exp.2 hXle
    have h2 : Real.exp 3 = Real.exp 1 ^ 3 := by rw [← Real.exp_nat_mul]; norm_num
    have h3 := pow_le_pow_left₀ (Real.exp_pos 1).le Real.exp_one_lt_d9.le 3
    rw [h2] at h1
    refine h1.trans (h3.trans (by norm_num))
  rw [hI] at hI1
  obtain ⟨y, ww, iw, bw⟩ := ib_after (wa := wa) a0 a2' ig q0 hEb hE3 hF1 hI1 hε0 hε1 (by positivity) hη1 bq bg a1'
  rw [← hI] at bw
  refine ⟨y, ww, ?_, ?_⟩
  · unfold incomplete_beta_begin
    rw [el, ek, er]
    change (do let e ← exp (fin a wa * fin l wl + fin b wb * v - fin r wr); .ok (e / fin a wa * _)) = _
    rw [ee, eq]
    change Except.ok _ = _
    rw [iw]
  · refine bw.trans (mul_le_mul_of_nonneg_right ?_ (ibI_nonneg a0' b0' z0'.le z2'.le))
    norm_num at hε2 ⊢
    linarith

end Gcem.Props
