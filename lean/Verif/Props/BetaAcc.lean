import Verif.Props.TgammaAcc
import Mathlib.Analysis.SpecialFunctions.Gamma.Beta

/-!
# C74, C75: accuracy of lbeta, beta and log_binomial_coef
-/

namespace Gcem.Props
open Gcem FV
variable {f : Fmt}

theorem lg_mid {a b : ℝ} (ha : 1 ≤ a) (h : a ≤ b) (hb : b ≤ 2) :
    |Real.log (Real.Gamma b) - Real.log (Real.Gamma a)| ≤ (b - a) * (115 / 100) := by
  rcases h.eq_or_lt with rfl | h
  · simp
  have s2 : (Real.log (Real.Gamma b) - Real.log (Real.Gamma a)) / (b - a) ≤ Real.log 2 := by
    have hc := Lan.lg_slope (show 0 < a by linarith) h (show b < 3 by linarith)
    rcases hb.eq_or_lt with rfl | hb
    · refine hc.trans ?_
      norm_num
    · have hc1 := Lan.lg_slope (show 0 < a by linarith) h hb
      have hc2 := Lan.lg_slope (show 0 < b by linarith) hb (show (2:ℝ) < 3 by norm_num)
      norm_num at hc1 hc2
      linarith
  have s1 : -(115 / 100) ≤ (Real.log (Real.Gamma b) - Real.log (Real.Gamma a)) / (b - a) := by
    have h3 := Lan.lg_half
    have key : ∀ c : ℝ, 1 < c → -(115 / 100) ≤ (Real.log (Real.Gamma c) - Real.log (Real.Gamma 1)) / (c - 1) := fun c hc => by
      have := Lan.lg_slope (show (0:ℝ) < 1 / 2 by norm_num) (show (1 / 2 : ℝ) < 1 by norm_num) hc
      refine le_trans ?_ this
      rw [le_div_iff₀ (by norm_num)]
      linarith
    rcases ha.eq_or_lt with rfl | ha
    · exact key b h
    · exact (key a ha).trans (Lan.lg_slope one_pos ha h)
  have := Real.log_two_lt_d9
  rw [le_div_iff₀ (by linarith)] at s1
  rw [div_le_iff₀ (by linarith)] at s2
  have h5 : Real.log 2 * (b - a) ≤ 115 / 100 * (b - a) := mul_le_mul_of_nonneg_right (by linarith) (by linarith)
  rw [abs_le]
  constructor <;> linarith

/-- rounding error of `(x + y) - z` -/
theorem comb_err {u x y z A B C e M s t : ℝ} (hu : 0 < u) (hu7 : u ≤ 1 / 10 ^ 7) (he : |x - A| + |y - B| + |z - C| ≤ e)
    (hM : |A| + |B| ≤ M) (hC : |C| ≤ 101 / 100 * M) (heM : e ≤ 1 / 1000 * (1 + M)) (hs : |s - (x + y)| ≤ u * |x + y| + u / 1000)
    (ht : |t - (s - z)| ≤ u * |s - z| + u / 1000) : |t - (A + B - C)| ≤ e + (31 / 10 * M + 1) * u ∧ |s| ≤ 2 * M + 1 ∧ |z| ≤ 2 * M + 1 := by
  have a1 := abs_sub_abs_le_abs_sub x A
  have a2 := abs_sub_abs_le_abs_sub y B
  have a3 := abs_sub_abs_le_abs_sub z C
  have p1 := abs_nonneg (x - A)
  have p2 := abs_nonneg (y - B)
  have p3 := abs_nonneg (z - C)
  have q1 := abs_nonneg A
  have q2 := abs_nonneg B
  have q3 := abs_nonneg C
  have hxy := abs_add_le x y
  have hM0 : 0 ≤ M := by linarith
  have h1 : |x + y| ≤ 1001 / 1000 * M + 1 / 1000 := by linarith
  have h2 := mul_le_mul_of_nonneg_left h1 hu.le
  have h3 := abs_sub_abs_le_abs_sub s (x + y)
  have h4 := abs_sub s z
  have huM : u * M ≤ 1 / 10 ^ 7 * M := mul_le_mul_of_nonneg_right hu7 hM0
  norm_num only at huM hu7
  have h5 : |s - z| ≤ 203 / 100 * M + 1 / 100 := by linarith
  have h6 := mul_le_mul_of_nonneg_left h5 hu.le
  have h7 : |t - (A + B - C)| ≤ |t - (s - z)| + |s - (x + y)| + (|x - A| + |y - B| + |z - C|) := by
    have e : t - (A + B - C) = (t - (s - z)) + (s - (x + y)) + ((x - A) + (y - B) - (z - C)) := by ring
    rw [e]
    refine (abs_add_le _ _).trans (add_le_add (abs_add_le _ _) ?_)
    exact (abs_sub _ _).trans (add_le_add (abs_add_le _ _) le_rfl)
  have h8 : 0 ≤ M * u := by positivity
  refine ⟨by linarith, by linarith, by linarith⟩

/-- `q log (q + 6)` -/
theorem qlog_mono {a b : ℝ} (ha : 0 ≤ a) (h : a ≤ b) : a * Real.log (a + 6) ≤ b * Real.log (b + 6) :=
  mul_le_mul h (Real.log_le_log (by linarith) (by linarith)) (Real.log_nonneg (by linarith)) (by linarith)

theorem qlog_add {a b : ℝ} (ha : 0 ≤ a) (hb : 0 ≤ b) : a * Real.log (a + 6) + b * Real.log (b + 6) ≤ (a + b) * Real.log (a + b + 6) := by
  rw [add_mul]
  exact add_le_add (mul_le_mul_of_nonneg_left (Real.log_le_log (by linarith) (by linarith)) ha)
    (mul_le_mul_of_nonneg_left (Real.log_le_log (by linarith) (by linarith)) hb)

/-- `q log (q + 6)` at a value with relative error `u` -/
theorem qlog_near {σ c u : ℝ} (hu : 0 < u) (hu7 : u ≤ 1 / 10 ^ 7) (hc : 1 / 2 ≤ c) (hσ0 : 0 ≤ σ) (h : |σ - c| ≤ u * c) :
    σ * Real.log (σ + 6) ≤ 10001 / 10000 * (c * Real.log (c + 6)) := by
  have b := (abs_le.1 h).2
  have hL := le_log_aux (show 474 / 100 ≤ c + 6 by linarith)
  have huc : u * c ≤ 1 / 10 ^ 7 * c := mul_le_mul_of_nonneg_right hu7 (by linarith)
  have h1 : Real.log (σ + 6) ≤ Real.log (c + 6) + 1 / 10 ^ 7 := by
    have h2 : σ + 6 ≤ (c + 6) * (1 + 1 / 10 ^ 7) := by norm_num at huc ⊢; linarith
    have h3 := Real.log_le_log (by linarith) h2
    rw [Real.log_mul (by linarith) (by norm_num)] at h3
    have := Real.log_le_sub_one_of_pos (show (0:ℝ) < 1 + 1 / 10 ^ 7 by norm_num)
    linarith
  have h2 : σ ≤ (1 + 1 / 10 ^ 7) * c := by linarith
  have h3 : σ * Real.log (σ + 6) ≤ ((1 + 1 / 10 ^ 7) * c) * ((1 + 1 / 10 ^ 7) * Real.log (c + 6)) :=
    mul_le_mul h2 (by norm_num at h1 ⊢; linarith) (Real.log_nonneg (by linarith)) (by linarith)
  have h4 : 0 ≤ c * Real.log (c + 6) := mul_nonneg (by linarith) (by linarith)
  norm_num at h3 ⊢
  linarith

/-- the sum `a + b` is rounded before `lgamma` -/
theorem lg_sum_near {σ c u : ℝ} (hu : 0 < u) (hc : 1 ≤ c) (h1 : c ≤ 2 → 1 ≤ σ ∧ σ ≤ 2) (h2 : 2 ≤ c → 2 ≤ σ) (h : |σ - c| ≤ u * c) (hu7 : u ≤ 1 / 10 ^ 7) :
    |Real.log (Real.Gamma σ) - Real.log (Real.Gamma c)| ≤ 1001 / 1000 * (c * Real.log (c + 6)) * u := by
  have hL := le_log_aux (show 474 / 100 ≤ c + 6 by linarith)
  have hb := abs_le.1 h
  rcases le_total c 2 with h3 | h3
  · obtain ⟨s1, s2⟩ := h1 h3
    have key : |Real.log (Real.Gamma σ) - Real.log (Real.Gamma c)| ≤ |σ - c| * (115 / 100) := by
      rcases le_total σ c with h4 | h4
      · have := lg_mid s1 h4 h3
        rw [abs_sub_comm, abs_sub_comm σ c, abs_of_nonneg (show 0 ≤ c - σ by linarith)]; exact this
      · have := lg_mid hc h4 s2
        rw [abs_of_nonneg (show 0 ≤ σ - c by linarith)]; exact this
    refine key.trans ?_
    have h5 : |σ - c| * (115 / 100) ≤ u * c * Real.log (c + 6) := mul_le_mul h (by linarith) (by norm_num) (by positivity)
    have h6 : 0 ≤ u * c * Real.log (c + 6) := by have : 0 ≤ Real.log (c + 6) := by linarith
                                                 positivity
    linarith
  · have s1 := h2 h3
    have key : |Real.log (Real.Gamma σ) - Real.log (Real.Gamma c)| ≤ |σ - c| * Real.log (max σ c) := by
      rcases le_total σ c with h4 | h4
      · have := Lan.lg_up s1 h4
        rw [max_eq_right h4, abs_sub_comm, abs_of_nonneg this.1, abs_sub_comm σ c, abs_of_nonneg (show 0 ≤ c - σ by linarith)]
        exact this.2
      · have := Lan.lg_up h3 h4
        rw [max_eq_left h4, abs_of_nonneg this.1, abs_of_nonneg (show 0 ≤ σ - c by linarith)]
        exact this.2
    refine key.trans ?_
    have huc : u * c ≤ 1 / 10 ^ 7 * c := mul_le_mul_of_nonneg_right hu7 (by linarith)
    have hm : max σ c ≤ (1 + 1 / 10 ^ 7) * c := max_le (by linarith) (by norm_num; linarith)
    have hlm : Real.log (max σ c) ≤ 1001 / 1000 * Real.log (c + 6) := by
      have h3 := Real.log_le_log (by linarith [le_max_left σ c] : 0 < max σ c) (hm.trans (show (1 + 1 / 10 ^ 7) * c ≤ (c + 6) * (1 + 1 / 10 ^ 7) by norm_num; linarith))
      rw [Real.log_mul (by linarith) (by norm_num)] at h3
      have := Real.log_le_sub_one_of_pos (show (0:ℝ) < 1 + 1 / 10 ^ 7 by norm_num)
      norm_num at this h3 ⊢
      linarith
    have := mul_le_mul h hlm (Real.log_nonneg (by linarith [le_max_left σ c])) (by positivity)
    linarith

/-- logarithm of the beta function -/
noncomputable def logBeta (a b : ℝ) : ℝ := Real.log (Real.Gamma a) + Real.log (Real.Gamma b) - Real.log (Real.Gamma (a + b))

theorem sum_sigma {a b : ℚ} (ha : Rep f a) (hb : Rep f b) (h1 : 1 / 2 ≤ a) (h2 : 1 / 2 ≤ b) :
    1 ≤ rnd f (a + b) ∧ (a + b ≤ 2 → rnd f (a + b) ≤ 2) ∧ (2 ≤ a + b → 2 ≤ rnd f (a + b)) ∧
    |((rnd f (a + b) : ℚ) : ℝ) - (a + b)| ≤ uro f * (a + b) := by
  have r1 : Rep f 1 := rep_int (n := 1) (by have := two_pow_prec f; simp; omega)
  have r2 : Rep f 2 := rep_int (n := 2) (by have := two_pow_prec f; simp; omega)
  refine ⟨le_rnd_of_rep r1 (by linarith), fun h => rnd_le_of_rep r2 h, fun h => le_rnd_of_rep r2 h, ?_⟩
  have h := rnd_add_real ha hb
  have h0 : (0:ℝ) < a + b := by
    have : (0:ℚ) < a + b := by linarith
    exact_mod_cast this
  rwa [abs_of_pos h0] at h

theorem lbeta_core (hf : f.exact = false) (a b : ℚ) (za zb : Bool) (hxa : Valid (fin a za : FV f)) (hxb : Valid (fin b zb : FV f))
    (a1 : 1 / 2 ≤ a) (a2 : a ≤ 2 ^ 88) (b1 : 1 / 2 ≤ b) (b2 : b ≤ 2 ^ 88) :
    ∃ r w, lbeta (fin a za : FV f) (fin b zb) = .ok (fin r w) ∧ Valid (fin r w : FV f) ∧
      |(r:ℝ) - logBeta a b| ≤ (335 + 49 * (a + b) * Real.log (a + b + 6)) / 2 ^ f.prec + 54 / 10 ^ 15 := by
  have hu := uro_pos_real f
  have hu7 := uro7_real f
  have a1' : (1 / 2 : ℝ) ≤ a := by have := (Rat.cast_le (K := ℝ)).2 a1; push_cast at this; exact this
  have b1' : (1 / 2 : ℝ) ≤ b := by have := (Rat.cast_le (K := ℝ)).2 b1; push_cast at this; exact this
  have a2' : (a:ℝ) ≤ 2 ^ 88 := by have := (Rat.cast_le (K := ℝ)).2 a2; push_cast at this; exact this
  have b2' : (b:ℝ) ≤ 2 ^ 88 := by have := (Rat.cast_le (K := ℝ)).2 b2; push_cast at this; exact this
  obtain ⟨s1, s2, s3, s4⟩ := sum_sigma hxa.rep hxb.rep a1 b1
  have nS : overflows f (rnd f (a + b)) = false := nov (by
    rw [abs_of_pos (by linarith)]; norm_num at a2 b2 ⊢; linarith)
  obtain ⟨zs, es⟩ := (is_fin (f := f) a za).add (is_fin b zb) nS
  have vs : Valid (fin (rnd f (a + b)) zs : FV f) := es ▸ valid_add _ _
  have s5 : rnd f (a + b) ≤ 2 ^ 90 := by
    have r9 : Rep f ((2:ℚ) ^ 89) := by
      have := rep_of_scaled (f := f) (m := 1) (e := 89) (by have := two_pow_prec f; simp; omega)
        (by rcases f with ⟨⟨⟩, ⟨⟩⟩ <;> decide)
      simpa [pow2_eq] using this
    have := rnd_le_of_rep (q := a + b) r9 (by norm_num at a2 b2 ⊢; linarith)
    norm_num at this ⊢
    linarith
  obtain ⟨la, wa, ela, bla⟩ := C72_accuracy hf a za hxa a1 (a2.trans (by norm_num))
  obtain ⟨lb, wb, elb, blb⟩ := C72_accuracy hf b zb hxb b1 (b2.trans (by norm_num))
  obtain ⟨lc, wc, elc, blc⟩ := C72_accuracy hf _ zs vs (by linarith) s5
  rw [div_eq_mul_one_div _ ((2:ℝ) ^ f.prec), ← uro_eq] at bla blb blc ⊢
  have hc : (1:ℝ) ≤ a + b := by linarith
  have s1' : (1:ℝ) ≤ (rnd f (a + b) : ℚ) := by exact_mod_cast s1
  have hΓ := lg_sum_near hu hc (fun h => ⟨s1', by
      have h' : a + b ≤ 2 := by exact_mod_cast h
      have := s2 h'; exact_mod_cast this⟩) (fun h => by
      have h' : 2 ≤ a + b := by exact_mod_cast h
      have := s3 h'; exact_mod_cast this) s4 hu7
  have hσ := qlog_near hu hu7 (by linarith) (by linarith) s4
  have hadd := qlog_add (show (0:ℝ) ≤ a by linarith) (show (0:ℝ) ≤ b by linarith)
  have hA := log_gamma_abs_le a1'
  have hB := log_gamma_abs_le b1'
  have hC := log_gamma_abs_le (show (1 / 2 : ℝ) ≤ a + b by linarith)
  have hcb : (a:ℝ) + b ≤ 2 ^ 89 := by norm_num at a2' b2' ⊢; linarith
  have hM : ((a:ℝ) + b) * Real.log (a + b + 6) ≤ 2 ^ 100 := by
    have h3 : Real.log ((a:ℝ) + b + 6) ≤ 100 := by
      rw [Real.log_le_iff_le_exp (by linarith)]
      have e : Real.exp 100 = Real.exp 1 ^ 100 := by rw [← Real.exp_nat_mul]; norm_num
      rw [e]
      have : (2:ℝ) ^ 100 ≤ Real.exp 1 ^ 100 := pow_le_pow_left₀ (by norm_num) (by have := Real.exp_one_gt_d9; linarith) 100
      norm_num at this hcb ⊢
      linarith
    have := mul_le_mul hcb h3 (Real.log_nonneg (by linarith)) (by positivity)
    norm_num at this ⊢
    linarith
  have e49 : 49 * ((a:ℝ) + b) * Real.log (a + b + 6) = 49 * ((a + b) * Real.log (a + b + 6)) := by ring
  have e22 : ∀ x : ℝ, 22 * x * Real.log (x + 6) = 22 * (x * Real.log (x + 6)) := fun x => by ring
  rw [e22] at bla blb blc
  rw [e49]
  unfold logBeta
  clear e49 e22
  have hM0 : 0 ≤ ((a:ℝ) + b) * Real.log (a + b + 6) := (abs_nonneg _).trans hC
  generalize ((a:ℝ) + b) * Real.log (a + b + 6) = M at *
  generalize ((rnd f (a + b) : ℚ) : ℝ) * Real.log ((rnd f (a + b) : ℚ) + 6) = S at *
  generalize (a:ℝ) * Real.log (a + 6) = P at *
  generalize (b:ℝ) * Real.log (b + 6) = Q at *
  have hMu : M * uro f ≤ M * (1 / 10 ^ 7) := mul_le_mul_of_nonneg_left hu7 hM0
  have hMu0 : 0 ≤ M * uro f := by positivity
  have h1 := mul_le_mul_of_nonneg_right hσ hu.le
  have h2 := mul_le_mul_of_nonneg_right hadd hu.le
  have blc' : |(lc:ℝ) - Real.log (Real.Gamma (a + b))| ≤ (111 + 22 * S) * uro f + 18 / 10 ^ 15 + 1001 / 1000 * M * uro f := by
    have h3 := abs_add_le ((lc:ℝ) - Real.log (Real.Gamma (rnd f (a + b) : ℚ))) (Real.log (Real.Gamma (rnd f (a + b) : ℚ)) - Real.log (Real.Gamma (a + b)))
    rw [sub_add_sub_cancel] at h3
    exact h3.trans (add_le_add blc hΓ)
  have he : |(la:ℝ) - Real.log (Real.Gamma a)| + |(lb:ℝ) - Real.log (Real.Gamma b)| + |(lc:ℝ) - Real.log (Real.Gamma (a + b))| ≤
      (333 + 451 / 10 * M) * uro f + 54 / 10 ^ 15 := by
    norm_num only at *
    linarith
  have heM : (333 + 451 / 10 * M) * uro f + 54 / 10 ^ 15 ≤ 1 / 1000 * (1 + M) := by
    norm_num only at *
    linarith
  have eS := rnd_all_real f (la + lb)
  have eT := rnd_all_real f (rnd f (la + lb) - lc)
  push_cast at eS eT
  obtain ⟨k1, k2, k3⟩ := comb_err hu hu7 he (by linarith) (by linarith) heM eS eT
  have k4 : |(la:ℝ) + lb| ≤ 2 ^ 127 := by
    have h3 := abs_add_le (la:ℝ) lb
    have h4 := abs_sub_abs_le_abs_sub (la:ℝ) (Real.log (Real.Gamma a))
    have h5 := abs_sub_abs_le_abs_sub (lb:ℝ) (Real.log (Real.Gamma b))
    have h6 := abs_nonneg ((lc:ℝ) - Real.log (Real.Gamma (a + b)))
    norm_num only at *
    linarith
  have n1 : overflows f (rnd f (la + lb)) = false := nov (by
    have : ((|la + lb| : ℚ) : ℝ) ≤ ((2 ^ 127 : ℚ) : ℝ) := by push_cast; exact k4
    exact_mod_cast this)
  have n2 : overflows f (rnd f (rnd f (la + lb) - lc)) = false := nov (by
    have : ((|rnd f (la + lb) - lc| : ℚ) : ℝ) ≤ ((2 ^ 127 : ℚ) : ℝ) := by
      push_cast
      refine (abs_sub _ _).trans ?_
      norm_num at hM ⊢
      linarith
    exact_mod_cast this)
  obtain ⟨w, ew⟩ := ((is_fin (f := f) la wa).add (is_fin lb wb) n1).sub (is_fin lc wc) n2
  refine ⟨_, w, ?_, ?_, k1.trans (by linarith)⟩
  · rw [lbeta, es, ela, elb, elc]; exact congrArg Except.ok ew
  · rw [← ew]; exact valid_sub _ _

/-- the beta function as documented in beta.hpp and lbeta.hpp -/
noncomputable def betaR (a b : ℝ) : ℝ := ∫ t in (0:ℝ)..1, t ^ (a - 1) * (1 - t) ^ (b - 1)

theorem betaR_eq {a b : ℝ} (ha : 0 < a) (hb : 0 < b) : betaR a b = Real.Gamma a * Real.Gamma b / Real.Gamma (a + b) := by
  have h := Complex.betaIntegral_eq_Gamma_mul_div (a:ℂ) (b:ℂ) (by simpa using ha) (by simpa using hb)
  rw [← Complex.ofReal_add, Complex.Gamma_ofReal, Complex.Gamma_ofReal, Complex.Gamma_ofReal] at h
  have e : Complex.betaIntegral a b = ((betaR a b : ℝ) : ℂ) := by
    rw [Complex.betaIntegral, betaR, ← intervalIntegral.integral_ofReal]
    refine intervalIntegral.integral_congr fun t ht => ?_
    rw [Set.uIcc_of_le zero_le_one] at ht
    simp only [Complex.ofReal_mul]
    rw [Complex.ofReal_cpow ht.1, Complex.ofReal_cpow (by linarith [ht.2])]
    push_cast
    rfl
  rw [e] at h
  exact_mod_cast h

theorem logBeta_eq {a b : ℝ} (ha : 0 < a) (hb : 0 < b) : logBeta a b = Real.log (betaR a b) := by
  have h1 := Real.Gamma_pos_of_pos ha
  have h2 := Real.Gamma_pos_of_pos hb
  have h3 := Real.Gamma_pos_of_pos (add_pos ha hb)
  rw [betaR_eq ha hb, Real.log_div (by positivity) h3.ne', Real.log_mul h1.ne' h2.ne', logBeta]

theorem betaR_pos {a b : ℝ} (ha : 0 < a) (hb : 0 < b) : 0 < betaR a b := by
  have h1 := Real.Gamma_pos_of_pos ha
  have h2 := Real.Gamma_pos_of_pos hb
  have h3 := Real.Gamma_pos_of_pos (add_pos ha hb)
  rw [betaR_eq ha hb]; positivity

theorem betaR_integrable {a b : ℝ} (ha : 0 < a) (hb : 0 < b) :
    IntervalIntegrable (fun t : ℝ => t ^ (a - 1) * (1 - t) ^ (b - 1)) MeasureTheory.volume 0 1 := by
  have h := (Complex.betaIntegral_convergent (u := a) (v := b) (by simpa using ha) (by simpa using hb)).norm
  refine h.congr fun t ht => ?_
  rw [Set.uIoc_of_le zero_le_one] at ht
  rw [norm_mul]
  have e1 : ((t:ℂ) ^ ((a:ℂ) - 1)) = ((t ^ (a - 1) : ℝ) : ℂ) := by
    rw [Complex.ofReal_cpow ht.1.le]; push_cast; rfl
  have e2 : ((1 - (t:ℂ)) ^ ((b:ℂ) - 1)) = (((1 - t) ^ (b - 1) : ℝ) : ℂ) := by
    rw [Complex.ofReal_cpow (by linarith [ht.2])]; push_cast; rfl
  rw [e1, e2, Complex.norm_real, Complex.norm_real, Real.norm_of_nonneg (Real.rpow_nonneg ht.1.le _),
    Real.norm_of_nonneg (Real.rpow_nonneg (by linarith [ht.2]) _)]

theorem betaR_le {a b : ℝ} (ha : 1 / 2 ≤ a) (hb : 1 / 2 ≤ b) : betaR a b ≤ Real.pi := by
  have e : betaR (1 / 2) (1 / 2) = Real.pi := by
    rw [betaR_eq (by norm_num) (by norm_num), Real.Gamma_one_half_eq, Real.mul_self_sqrt Real.pi_pos.le]
    norm_num
  rw [← e]
  refine intervalIntegral.integral_mono_on_of_le_Ioo zero_le_one (betaR_integrable (by linarith) (by linarith))
    (betaR_integrable (by norm_num) (by norm_num)) fun t ht => ?_
  exact mul_le_mul (Real.rpow_le_rpow_of_exponent_ge ht.1 ht.2.le (by linarith))
    (Real.rpow_le_rpow_of_exponent_ge (by linarith [ht.2]) (by linarith [ht.1]) (by linarith))
    (Real.rpow_nonneg (by linarith [ht.2]) _) (Real.rpow_nonneg ht.1.le _)

/-- C74: error of `lbeta` against the logarithm of the beta integral, for arguments from one half up. -/
theorem C74_lbeta_accuracy (hf : f.exact = false) (a b : ℚ) (za zb : Bool) (hxa : Valid (fin a za : FV f)) (hxb : Valid (fin b zb : FV f))
    (a1 : 1 / 2 ≤ a) (a2 : a ≤ 2 ^ 88) (b1 : 1 / 2 ≤ b) (b2 : b ≤ 2 ^ 88) :
    ∃ r w, lbeta (fin a za : FV f) (fin b zb) = .ok (fin r w) ∧
      |(r:ℝ) - Real.log (∫ t in (0:ℝ)..1, t ^ ((a:ℝ) - 1) * (1 - t) ^ ((b:ℝ) - 1))| ≤
        (335 + 49 * (a + b) * Real.log (a + b + 6)) / 2 ^ f.prec + 54 / 10 ^ 15 := by
  obtain ⟨r, w, e, -, h⟩ := lbeta_core hf a b za zb hxa hxb a1 a2 b1 b2
  rw [logBeta_eq (by have : 0 < a := by linarith
                     exact_mod_cast this) (by have : 0 < b := by linarith
                                              exact_mod_cast this)] at h
  exact ⟨r, w, e, h⟩

/-- C74: relative error of `beta`, as long as the result is a normal value and the error is below one part in a
thousand. -/
theorem C74_beta_accuracy (hf : f.exact = false) (a b : ℚ) (za zb : Bool) (hxa : Valid (fin a za : FV f)) (hxb : Valid (fin b zb : FV f))
    (a1 : 1 / 2 ≤ a) (a2 : a ≤ 2 ^ 88) (b1 : 1 / 2 ≤ b) (b2 : b ≤ 2 ^ 88)
    (hD : ((335 + 49 * (a + b) * Real.log (a + b + 6)) / 2 ^ f.prec + 54 / 10 ^ 15 : ℝ) ≤ 1 / 1000)
    (hlo : Real.exp (1 - expMin f.ty) ≤ betaR a b) :
    ∃ r, beta (fin a za : FV f) (fin b zb) = .ok (fin r false) ∧ 0 < r ∧
      |(r:ℝ) - betaR a b| ≤ ((470 + 58 * (a + b) * Real.log (a + b + 6)) / 2 ^ f.prec + 55 / 10 ^ 15) * betaR a b := by
  have hu := uro_pos_real f
  have a1' : (1 / 2 : ℝ) ≤ a := by have := (Rat.cast_le (K := ℝ)).2 a1; push_cast at this; exact this
  have b1' : (1 / 2 : ℝ) ≤ b := by have := (Rat.cast_le (K := ℝ)).2 b1; push_cast at this; exact this
  have hB := betaR_pos (show (0:ℝ) < a by linarith) (show (0:ℝ) < b by linarith)
  obtain ⟨l, w, e, v, h⟩ := lbeta_core hf a b za zb hxa hxb a1 a2 b1 b2
  have hle := logBeta_eq (show (0:ℝ) < a by linarith) (show (0:ℝ) < b by linarith)
  have h1 : 1 - (expMin f.ty : ℝ) ≤ logBeta a b := by
    rw [hle, Real.le_log_iff_exp_le hB]; exact hlo
  have h2 : logBeta a b ≤ expMax f.ty - 1 := by
    have h3 := Real.log_le_sub_one_of_pos hB
    have h4 := betaR_le a1' b1'
    have : (88:ℝ) ≤ expMax f.ty := by rcases f with ⟨⟨⟩, _⟩ <;> norm_num [expMax]
    have := Real.pi_le_four
    linarith
  obtain ⟨r, er, r0, br⟩ := exp_of_lgamma hf v hD h h1 h2
  refine ⟨r, by rw [beta, e]; exact er, r0, ?_⟩
  have ht : |logBeta a b| ≤ 2 * ((a + b) * Real.log (a + b + 6)) := by
    have k1 := log_gamma_abs_le a1'
    have k2 := log_gamma_abs_le b1'
    have k3 := log_gamma_abs_le (show (1 / 2 : ℝ) ≤ a + b by linarith)
    have k4 := qlog_add (show (0:ℝ) ≤ a by linarith) (show (0:ℝ) ≤ b by linarith)
    have k5 := abs_sub (Real.log (Real.Gamma a) + Real.log (Real.Gamma b)) (Real.log (Real.Gamma (a + b)))
    have k6 := abs_add_le (Real.log (Real.Gamma a)) (Real.log (Real.Gamma b))
    unfold logBeta
    linarith
  rw [hle, Real.exp_log hB, ← hle] at br
  refine br.trans (mul_le_mul_of_nonneg_right ?_ hB.le)
  rw [div_eq_mul_one_div _ ((2:ℝ) ^ f.prec), div_eq_mul_one_div (470 + _) ((2:ℝ) ^ f.prec), ← uro_eq]
  have h5 := mul_le_mul_of_nonneg_right ht hu.le
  have h6 : 0 ≤ ((a + b) * Real.log (a + b + 6)) * uro f := by
    have : 0 ≤ ((a + b) * Real.log (a + b + 6) : ℝ) := by linarith [abs_nonneg (logBeta a b)]
    positivity
  norm_num only at *
  linarith

/-- C75: error of `log_binomial_coef` for whole arguments. -/
theorem C75_accuracy (hf : f.exact = false) (n k : ℕ) (z z' : Bool) (hn : n < 2 ^ f.prec) (hk : k ≤ n) :
    ∃ r w, log_binomial_coef (fin n z : FV f) (fin k z') = .ok (fin r w) ∧
      |(r:ℝ) - Real.log (n.choose k)| ≤ (335 + 48 * (n + 2) * Real.log (n + 8)) / 2 ^ f.prec + 54 / 10 ^ 15 := by
  have hu := uro_pos_real f
  have hu7 := uro7_real f
  have hp : (2:ℕ) ^ f.prec ≤ 2 ^ 64 := Nat.pow_le_pow_right (by norm_num) (by rcases f with ⟨⟨⟩, _⟩ <;> simp [Fmt.prec, FTy.prec])
  have key : ∀ m : ℕ, m ≤ n → ∀ v : FV f, Is v ((m:ℚ) + 1) → Valid v → ∃ l w, lgamma v = .ok (fin l w) ∧
      |(l:ℝ) - Real.log (m.factorial)| ≤ (111 + 22 * ((m + 1) * Real.log (m + 1 + 6))) * uro f + 18 / 10 ^ 15 ∧
      |Real.log (m.factorial)| ≤ (m + 1) * Real.log (m + 1 + 6) := by
    rintro m hm v ⟨w, rfl⟩ hv
    have hmn : (m:ℚ) + 1 ≤ 2 ^ 64 := by
      have : m + 1 ≤ 2 ^ 64 := by omega
      exact_mod_cast this
    have hm0 : (0:ℚ) ≤ m := by positivity
    have hm0' : (0:ℝ) ≤ m := by positivity
    obtain ⟨l, w', e, h⟩ := C72_accuracy hf ((m:ℚ) + 1) w hv (by linarith) (hmn.trans (by norm_num))
    have hg : Real.Gamma (((m:ℚ) + 1 : ℚ) : ℝ) = m.factorial := by
      push_cast; exact Real.Gamma_nat_eq_factorial m
    have h3 := log_gamma_abs_le (show (1 / 2 : ℝ) ≤ (m:ℝ) + 1 by linarith)
    rw [Real.Gamma_nat_eq_factorial] at h3
    refine ⟨l, w', e, ?_, h3⟩
    rw [hg, div_eq_mul_one_div _ ((2:ℝ) ^ f.prec), ← uro_eq] at h
    push_cast at h
    refine h.trans (le_of_eq (by ring))
  have isn : ∀ m : ℕ, m ≤ 2 ^ f.prec → Rep f (m:ℚ) := fun m hm => by
    have := rep_int (f := f) (n := m) (by rw [abs_of_nonneg (by positivity)]; exact_mod_cast hm)
    exact_mod_cast this
  have novn : ∀ m : ℕ, m ≤ 2 ^ f.prec → overflows f (rnd f (m:ℚ)) = false := fun m hm => nov (by
    rw [abs_of_nonneg (by positivity)]
    have : m ≤ 2 ^ 127 := (hm.trans hp).trans (by norm_num)
    exact_mod_cast this)
  have add1 : ∀ (m : ℕ) (v : FV f), m < 2 ^ f.prec → Is v (m:ℚ) → Is (v + i 1) ((m:ℚ) + 1) := fun m v hm hv => by
    have e : ((m + 1 : ℕ) : ℚ) = (m:ℚ) + 1 := by push_cast; ring
    have h := hv.add (is_i (f := f) (n := 1) (by decide)) (by
      have := novn (m + 1) hm; rw [e] at this; simpa using this)
    have h2 : rnd f ((m:ℚ) + 1) = (m:ℚ) + 1 := by have := isn (m + 1) hm; rw [e] at this; exact this
    simp only [Int.cast_one] at h
    rwa [h2] at h
  have ink : Is ((fin n z : FV f) - fin k z') ((n - k : ℕ) : ℚ) := by
    have e : ((n - k : ℕ) : ℚ) = (n:ℚ) - k := by push_cast [Nat.cast_sub hk]; ring
    have h := (is_fin (f := f) (n:ℚ) z).sub (is_fin (k:ℚ) z') (by
      have := novn (n - k) (by omega); rwa [e] at this)
    rw [← e] at h
    rwa [show rnd f ((n - k : ℕ) : ℚ) = ((n - k : ℕ) : ℚ) from isn (n - k) (by omega)] at h
  obtain ⟨la, wa, ela, bla, mla⟩ := key n le_rfl _ (add1 n _ hn (is_fin _ z)) (valid_add _ _)
  obtain ⟨lb, wb, elb, blb, mlb⟩ := key k hk _ (add1 k _ (by omega) (is_fin _ z')) (valid_add _ _)
  obtain ⟨lc, wc, elc, blc, mlc⟩ := key (n - k) (by omega) _ (add1 (n - k) _ (by omega) ink) (valid_add _ _)
  have hch : Real.log (n.choose k) = Real.log n.factorial - (Real.log k.factorial + Real.log (n - k).factorial) := by
    rw [Nat.cast_choose ℝ hk, Real.log_div (by positivity) (by positivity), Real.log_mul (by positivity) (by positivity)]
  have q1 := qlog_add (show (0:ℝ) ≤ (k:ℝ) + 1 by positivity) (show (0:ℝ) ≤ ((n - k : ℕ):ℝ) + 1 by positivity)
  have esum : (k:ℝ) + 1 + (((n - k : ℕ):ℝ) + 1) = n + 2 := by push_cast [Nat.cast_sub hk]; ring
  rw [esum, show (n:ℝ) + 2 + 6 = n + 8 by ring] at q1
  have q2 := qlog_mono (show (0:ℝ) ≤ (n:ℝ) + 1 by positivity) (show (n:ℝ) + 1 ≤ n + 2 by linarith)
  rw [show (n:ℝ) + 2 + 6 = n + 8 by ring] at q2
  have hM : ((n:ℝ) + 2) * Real.log (n + 8) ≤ 2 ^ 100 := by
    have hn64 : (n:ℝ) ≤ 2 ^ 64 := by have : n ≤ 2 ^ 64 := by omega
                                     exact_mod_cast this
    have h3 : Real.log ((n:ℝ) + 8) ≤ 2 ^ 30 := by
      rw [Real.log_le_iff_le_exp (by positivity)]
      refine le_trans ?_ (Real.exp_le_exp.2 (show (100:ℝ) ≤ 2 ^ 30 by norm_num))
      have e : Real.exp 100 = Real.exp 1 ^ 100 := by rw [← Real.exp_nat_mul]; norm_num
      rw [e]
      have : (2:ℝ) ^ 100 ≤ Real.exp 1 ^ 100 := pow_le_pow_left₀ (by norm_num) (by have := Real.exp_one_gt_d9; linarith) 100
      norm_num only at this hn64 ⊢
      linarith
    have := mul_le_mul (show (n:ℝ) + 2 ≤ 2 ^ 65 by norm_num only at hn64 ⊢; linarith) h3 (Real.log_nonneg (by linarith [show (0:ℝ) ≤ n by positivity])) (by positivity)
    norm_num at this ⊢
    linarith
  rw [hch, div_eq_mul_one_div _ ((2:ℝ) ^ f.prec), ← uro_eq]
  have e48 : 48 * ((n:ℝ) + 2) * Real.log (n + 8) = 48 * ((n + 2) * Real.log (n + 8)) := by ring
  rw [e48]
  clear hch e48 esum isn novn add1 key ink
  have hM0 : 0 ≤ ((n:ℝ) + 2) * Real.log (n + 8) := by linarith [abs_nonneg (Real.log (n.factorial:ℝ))]
  generalize ((n:ℝ) + 2) * Real.log (n + 8) = M at *
  generalize ((n:ℝ) + 1) * Real.log (n + 1 + 6) = S at *
  generalize ((k:ℝ) + 1) * Real.log (k + 1 + 6) = P at *
  generalize (((n - k : ℕ):ℝ) + 1) * Real.log (((n - k : ℕ):ℝ) + 1 + 6) = Q at *
  generalize Real.log (n.factorial:ℝ) = C at *
  generalize Real.log (k.factorial:ℝ) = A at *
  generalize Real.log ((n - k).factorial:ℝ) = B at *
  have hMu : M * uro f ≤ M * (1 / 10 ^ 7) := mul_le_mul_of_nonneg_left hu7 hM0
  have hMu0 : 0 ≤ M * uro f := by positivity
  have h1 := mul_le_mul_of_nonneg_right q1 hu.le
  have h2 := mul_le_mul_of_nonneg_right q2 hu.le
  have he : |(lb:ℝ) - A| + |(lc:ℝ) - B| + |(la:ℝ) - C| ≤ (333 + 44 * M) * uro f + 54 / 10 ^ 15 := by
    norm_num only at *
    linarith
  have heM : (333 + 44 * M) * uro f + 54 / 10 ^ 15 ≤ 1 / 1000 * (1 + M) := by
    norm_num only at *
    linarith
  have eS := rnd_all_real f (lb + lc)
  have eT := rnd_all_real f (la - rnd f (lb + lc))
  push_cast at eS eT
  have eT' : |-((rnd f (la - rnd f (lb + lc)) : ℚ) : ℝ) - ((rnd f (lb + lc) : ℚ) - la)| ≤ uro f * |((rnd f (lb + lc) : ℚ) : ℝ) - la| + uro f / 1000 := by
    rw [abs_sub_comm ((rnd f (lb + lc) : ℚ) : ℝ) la]
    rw [← abs_neg]
    refine le_trans (le_of_eq ?_) eT
    congr 1; ring
  obtain ⟨k1, k2, k3⟩ := comb_err hu hu7 he (by linarith) (by linarith) heM eS eT'
  have k4 : |(lb:ℝ) + lc| ≤ 2 ^ 127 := by
    have h3 := abs_add_le (lb:ℝ) lc
    have h4 := abs_sub_abs_le_abs_sub (lb:ℝ) A
    have h5 := abs_sub_abs_le_abs_sub (lc:ℝ) B
    have h6 := abs_nonneg ((la:ℝ) - C)
    norm_num only at *
    linarith
  have n1 : overflows f (rnd f (lb + lc)) = false := nov (by
    have : ((|lb + lc| : ℚ) : ℝ) ≤ ((2 ^ 127 : ℚ) : ℝ) := by push_cast; exact k4
    exact_mod_cast this)
  have n2 : overflows f (rnd f (la - rnd f (lb + lc))) = false := nov (by
    have : ((|la - rnd f (lb + lc)| : ℚ) : ℝ) ≤ ((2 ^ 127 : ℚ) : ℝ) := by
      push_cast
      refine (abs_sub _ _).trans ?_
      norm_num at hM ⊢
      linarith
    exact_mod_cast this)
  obtain ⟨w, ew⟩ := (is_fin (f := f) la wa).sub ((is_fin (f := f) lb wb).add (is_fin lc wc) n1) n2
  refine ⟨rnd f (la - rnd f (lb + lc)), w, ?_, ?_⟩
  · rw [log_binomial_coef, ela, elb, elc]; exact congrArg Except.ok ew
  · rw [← abs_neg]
    refine le_trans (le_of_eq ?_) (k1.trans ?_)
    · congr 1; ring
    · linarith

/-- `lbeta(2.0, 3.0)` is within `10^-12` of `log (1/12)` -/
example : ∃ r w, lbeta (fin 2 false : FV binary64) (fin 3 false) = .ok (fin r w) ∧ |(r:ℝ) - Real.log (1 / 12)| ≤ 1 / 10 ^ 12 := by
  obtain ⟨r, w, e, -, b⟩ := lbeta_core (f := binary64) rfl 2 3 false false (by decide +kernel) (by decide +kernel) (by norm_num) (by norm_num)
    (by norm_num) (by norm_num)
  refine ⟨r, w, e, ?_⟩
  have h4 := Real.Gamma_nat_eq_factorial 4
  have h2 := Real.Gamma_nat_eq_factorial 2
  have h1 := Real.Gamma_nat_eq_factorial 1
  have hb : logBeta ((2:ℚ):ℝ) ((3:ℚ):ℝ) = Real.log (1 / 12) := by
    rw [logBeta_eq (by norm_num) (by norm_num), betaR_eq (by norm_num) (by norm_num)]
    norm_num [Nat.factorial] at h1 h2 h4 ⊢
  rw [hb] at b
  refine b.trans ?_
  have hl : Real.log (((2:ℚ):ℝ) + (3:ℚ) + 6) ≤ 10 := by
    have := Real.log_le_sub_one_of_pos (show (0:ℝ) < ((2:ℚ):ℝ) + (3:ℚ) + 6 by norm_num)
    norm_num at this ⊢; linarith
  rw [show binary64.prec = 53 from rfl]
  norm_num at hl ⊢
  linarith

/-- `beta(2.0, 3.0)` is within `10^-12` of `1/12` -/
example : ∃ r, beta (fin 2 false : FV binary64) (fin 3 false) = .ok (fin r false) ∧ |(r:ℝ) - 1 / 12| ≤ 1 / 10 ^ 12 := by
  have hl : Real.log (((2:ℚ):ℝ) + (3:ℚ) + 6) ≤ 10 := by
    have := Real.log_le_sub_one_of_pos (show (0:ℝ) < ((2:ℚ):ℝ) + (3:ℚ) + 6 by norm_num)
    norm_num at this ⊢; linarith
  have h4 := Real.Gamma_nat_eq_factorial 4
  have h2 := Real.Gamma_nat_eq_factorial 2
  have h1 := Real.Gamma_nat_eq_factorial 1
  have hb : betaR ((2:ℚ):ℝ) ((3:ℚ):ℝ) = 1 / 12 := by
    rw [betaR_eq (by norm_num) (by norm_num)]
    norm_num [Nat.factorial] at h1 h2 h4 ⊢
  obtain ⟨r, e, -, b⟩ := C74_beta_accuracy (f := binary64) rfl 2 3 false false (by decide +kernel) (by decide +kernel) (by norm_num) (by norm_num)
    (by norm_num) (by norm_num) (by rw [show binary64.prec = 53 from rfl]; norm_num at hl ⊢; linarith) (by
      rw [hb]
      have h := Real.exp_le_exp.2 (show (1 - (expMin binary64.ty : ℝ)) ≤ -11 by norm_num [expMin])
      refine h.trans ?_
      rw [Real.exp_neg, inv_le_comm₀ (Real.exp_pos _) (by norm_num)]
      have := Real.add_one_le_exp (11:ℝ)
      norm_num at this ⊢
      linarith)
  refine ⟨r, e, ?_⟩
  rw [hb] at b
  refine b.trans ?_
  rw [show binary64.prec = 53 from rfl]
  norm_num at hl ⊢
  linarith

/-- `log_binomial_coef(10.0, 3.0)` is within `10^-11` of `log 120` -/
example : ∃ r w, log_binomial_coef (fin (10:ℕ) false : FV binary64) (fin (3:ℕ) false) = .ok (fin r w) ∧
    |(r:ℝ) - Real.log 120| ≤ 1 / 10 ^ 11 := by
  obtain ⟨r, w, e, b⟩ := C75_accuracy (f := binary64) rfl 10 3 false false (by decide +kernel) (by norm_num)
  refine ⟨r, w, e, ?_⟩
  rw [show (Nat.choose 10 3) = 120 from rfl, show binary64.prec = 53 from rfl] at b
  have hl : Real.log (((10:ℕ):ℝ) + 8) ≤ 17 := by
    have := Real.log_le_sub_one_of_pos (show (0:ℝ) < ((10:ℕ):ℝ) + 8 by norm_num)
    norm_num at this ⊢; linarith
  refine le_trans (by norm_num at b ⊢; exact b) (show ((335 + 48 * (((10:ℕ):ℝ) + 2) * Real.log (((10:ℕ):ℝ) + 8)) / 2 ^ 53 + 54 / 10 ^ 15 : ℝ) ≤ _ from ?_)
  norm_num at hl ⊢
  linarith

end Gcem.Props
