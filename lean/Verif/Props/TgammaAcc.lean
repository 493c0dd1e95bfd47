import Verif.Props.LgammaAcc
import Verif.Props.ExpAcc

/-!
# C73: accuracy of tgamma
-/

namespace Gcem.Props
open Gcem FV
variable {f : Fmt}

/-- exponential of a value that carries an absolute error `D` -/
theorem exp_drift {E l t D r a : ℝ} (hD : D ≤ 1 / 1000) (hl : |l - t| ≤ D) (ha0 : 0 ≤ a)
    (hr : |r - Real.exp l| ≤ a * Real.exp l) (hE : Real.exp t = E) : |r - E| ≤ 1002 / 1000 * (a + D) * E := by
  have hE0 : 0 < E := hE ▸ Real.exp_pos t
  have e : Real.exp l = E * Real.exp (l - t) := by rw [← hE, ← Real.exp_add]; congr 1; ring
  have h1 : |Real.exp (l - t) - 1| ≤ 1001 / 1000 * D := by
    have := Real.abs_exp_sub_one_sub_id_le (show |l - t| ≤ 1 by linarith)
    have h2 : (l - t) ^ 2 ≤ 1 / 1000 * D := by
      rw [← sq_abs]
      have := abs_nonneg (l - t)
      nlinarith
    have h3 := abs_add_le (Real.exp (l - t) - 1 - (l - t)) (l - t)
    rw [sub_add_cancel] at h3
    linarith
  have hD0 : 0 ≤ D := (abs_nonneg _).trans hl
  generalize Real.exp (l - t) = p at *
  rw [e] at hr
  have b1 := abs_le.1 h1
  have hp : p ≤ 10011 / 10000 := by linarith
  have h4 := abs_add_le (r - E * p) (E * p - E)
  rw [sub_add_sub_cancel, show E * p - E = E * (p - 1) by ring, abs_mul, abs_of_pos hE0] at h4
  have h5 := mul_le_mul_of_nonneg_left h1 hE0.le
  have h6 : a * (E * p) ≤ a * (E * (10011 / 10000)) := by gcongr
  have h7 : 0 ≤ a * E := by positivity
  have h8 : 0 ≤ D * E := by positivity
  linarith

/-- the largest whole argument whose gamma function is in range with room to spare -/
def tgMax : FTy → ℕ | .float => 34 | .double => 171 | .ldouble => 1755

theorem tgMax_fact (t : FTy) : (tgMax t - 1).factorial ≤ (27182818283 / 10 ^ 10 : ℚ) ^ (expMax t - 1) := by
  cases t <;> decide +kernel

theorem tgMax_log (t : FTy) : Real.log (Real.Gamma (tgMax t)) ≤ expMax t - 1 := by
  have e : Real.Gamma (tgMax t) = ((tgMax t - 1).factorial : ℝ) := by
    have := Real.Gamma_nat_eq_factorial (tgMax t - 1)
    rw [← this]
    cases t <;> norm_num [tgMax]
  rw [e, Real.log_le_iff_le_exp (by positivity)]
  have h := (Rat.cast_le (K := ℝ)).2 (tgMax_fact t)
  push_cast at h
  refine h.trans ?_
  have h1 : ((expMax t - 1 : ℕ) : ℝ) = expMax t - 1 := by cases t <;> norm_num [expMax]
  rw [← h1, show Real.exp ((expMax t - 1 : ℕ) : ℝ) = Real.exp 1 ^ (expMax t - 1) by rw [← Real.exp_nat_mul]; simp]
  exact pow_le_pow_left₀ (by norm_num) (by have := Real.exp_one_gt_d9; norm_num at this ⊢; linarith) _

theorem log_gamma_nonneg2 {x : ℝ} (h : 2 ≤ x) : 0 ≤ Real.log (Real.Gamma x) := by
  have := (Lan.lg_up le_rfl h).1
  rwa [Real.Gamma_two, Real.log_one, sub_zero] at this

theorem log_gamma_abs_le {x : ℝ} (h : 1 / 2 ≤ x) : |Real.log (Real.Gamma x)| ≤ x * Real.log (x + 6) := by
  have hL := le_log_aux (show 474 / 100 ≤ x + 6 by linarith)
  have h2 := Real.log_two_lt_d9
  have hstep : 0 < x → Real.log (Real.Gamma (x + 1)) = Real.log x + Real.log (Real.Gamma x) := fun h0 => by
    rw [Real.Gamma_add_one h0.ne', Real.log_mul h0.ne' (Real.Gamma_pos_of_pos h0).ne']
  rcases le_or_gt x 1 with h1 | h1
  · have a1 := log_gamma_le (by linarith) h1
    have a2 := (Lan.lg_down (show 0 < x by linarith) h1 le_rfl).1
    rw [Real.Gamma_one, Real.log_one, sub_zero] at a2
    rw [abs_of_nonneg a2]
    have a3 : -Real.log x ≤ Real.log 2 := by
      rw [← Real.log_inv]
      refine Real.log_le_log (by positivity) ?_
      rw [inv_le_comm₀ (by linarith) (by norm_num)]; linarith
    nlinarith
  rcases le_or_gt x 2 with h3 | h3
  · have a1 := log_gamma_nonneg2 (show 2 ≤ x + 1 by linarith)
    rw [hstep (by linarith)] at a1
    have a2 : Real.log x ≤ Real.log 2 := Real.log_le_log (by linarith) h3
    have hc := Real.convexOn_log_Gamma.2 (show (1:ℝ) ∈ Set.Ioi 0 by simp) (show (2:ℝ) ∈ Set.Ioi 0 by simp)
      (show 0 ≤ 2 - x by linarith) (show 0 ≤ x - 1 by linarith) (by ring)
    simp only [smul_eq_mul, Function.comp_apply, mul_one, Real.Gamma_one, Real.Gamma_two, Real.log_one, mul_zero, add_zero] at hc
    rw [show 2 - x + (x - 1) * 2 = x by ring] at hc
    rw [abs_le]
    constructor <;> nlinarith
  · have a1 := Lan.lg_up le_rfl h3.le
    rw [Real.Gamma_two, Real.log_one, sub_zero] at a1
    rw [abs_of_nonneg a1.1]
    refine a1.2.trans ?_
    exact mul_le_mul (by linarith) (Real.log_le_log (by linarith) (by linarith)) (Real.log_nonneg (by linarith)) (by linarith)

theorem log_gamma_le_max {t : FTy} {x : ℝ} (h : 1 / 2 ≤ x) (h2 : x ≤ tgMax t) : Real.log (Real.Gamma x) ≤ expMax t - 1 := by
  have hm := tgMax_log t
  rcases le_or_gt 2 x with h3 | h3
  · have := (Lan.lg_up h3 h2).1
    linarith
  · have := (abs_le.1 (log_gamma_abs_le h)).2
    have h8 : Real.log (x + 6) ≤ 7 := by
      have := Real.log_le_sub_one_of_pos (show 0 < x + 6 by linarith)
      linarith
    have h9 : x * Real.log (x + 6) ≤ 2 * 7 := mul_le_mul h3.le h8 (Real.log_nonneg (by linarith)) (by norm_num)
    have : (88:ℝ) ≤ expMax t := by cases t <;> norm_num [expMax]
    linarith

theorem tg_small (f : Fmt) : (111 + 22 * (tgMax f.ty : ℝ) * 9) / 2 ^ f.prec + 18 / 10 ^ 15 ≤ 1 / 1000 := by
  rcases f with ⟨⟨⟩, ⟨⟩⟩ <;> norm_num [tgMax, Fmt.prec, FTy.prec]

theorem tg_small2 (f : Fmt) : (expMax f.ty : ℝ) + 8 ≤ 12000 := by
  rcases f with ⟨⟨⟩, ⟨⟩⟩ <;> norm_num [expMax]

theorem log_gamma_ge {x : ℝ} (h : 1 / 2 ≤ x) : -15 ≤ Real.log (Real.Gamma x) := by
  rcases le_or_gt 2 x with h3 | h3
  · linarith [log_gamma_nonneg2 h3]
  · have := (abs_le.1 (log_gamma_abs_le h)).1
    have h8 : Real.log (x + 6) ≤ 7 := by
      have := Real.log_le_sub_one_of_pos (show 0 < x + 6 by linarith)
      linarith
    have h9 : x * Real.log (x + 6) ≤ 2 * 7 := mul_le_mul h3.le h8 (Real.log_nonneg (by linarith)) (by norm_num)
    linarith

/-- `exp` of a computed `lgamma` -/
theorem exp_of_lgamma (hf : f.exact = false) {l : ℚ} {w : Bool} (hl : Valid (fin l w : FV f)) {t D : ℝ} (hD : D ≤ 1 / 1000)
    (h : |(l:ℝ) - t| ≤ D) (h1 : 1 - expMin f.ty ≤ t) (h2 : t ≤ expMax f.ty - 1) :
    ∃ r, exp (fin l w : FV f) = .ok (fin r false) ∧ 0 < r ∧
      |(r:ℝ) - Real.exp t| ≤ ((1333 / 10 + 402 / 100 * |t|) * uro f + 1002 / 1000 * D) * Real.exp t := by
  have hu := uro_pos_real f
  have hug : (1 / 2 ^ 62 : ℝ) ≤ 4 * uro f := by
    have := (Rat.cast_le (K := ℝ)).2 (uro_ge f)
    push_cast at this
    norm_num only at this ⊢
    linarith
  have b := abs_le.1 h
  have l1 : -(expMin f.ty : ℚ) ≤ l := by
    have : ((-(expMin f.ty : ℚ) : ℚ) : ℝ) ≤ l := by push_cast; linarith
    exact_mod_cast this
  have l2 : l ≤ expMax f.ty := by
    have : (l : ℝ) ≤ ((expMax f.ty : ℚ) : ℝ) := by push_cast; linarith
    exact_mod_cast this
  obtain ⟨r, e, r0, br⟩ := C33_accuracy hf l w hl l1 l2
  refine ⟨r, e, r0, ?_⟩
  rw [← uro_eq] at br
  have := exp_drift hD h (by positivity) br rfl
  refine this.trans (mul_le_mul_of_nonneg_right ?_ (Real.exp_pos t).le)
  have hlt : |(l:ℝ)| ≤ |t| + 1 / 1000 := by
    have := abs_sub_abs_le_abs_sub (l:ℝ) t
    linarith
  have h5 : (|(l:ℝ)| + 7) * (1 / 2 ^ 62) ≤ (|t| + 7001 / 1000) * (4 * uro f) :=
    mul_le_mul (by linarith) hug (by positivity) (by positivity)
  have h6 : 0 ≤ |t| * uro f := by positivity
  linarith

theorem expMin_ge (t : FTy) : (86:ℝ) ≤ expMin t := by cases t <;> norm_num [expMin]

theorem tg_pos (hf : f.exact = false) {q : ℚ} {z : Bool} (hx : Valid (fin q z : FV f)) (hm : minNormal f ≤ q) (h1 : q ≠ 1) :
    tgamma (fin q z : FV f) = (lgamma (fin q z : FV f)).bind fun l => exp l := by
  refine C53_tgamma_positive q z hm ?_
  rw [fin_sub]
  intro hc
  have := lg_not_one hf hx.rep h1
  linarith [tiny_mk hc]

/-- C73: relative error of `tgamma` from one half up to the end of the range of the type. -/
theorem C73_accuracy (hf : f.exact = false) (q : ℚ) (z : Bool) (hx : Valid (fin q z : FV f)) (h1 : 1 / 2 ≤ q) (h2 : q ≤ tgMax f.ty) :
    ∃ r, tgamma (fin q z : FV f) = .ok (fin r false) ∧ 0 < r ∧
      |(r:ℝ) - Real.Gamma q| ≤ ((245 + 27 * q * Real.log (q + 6)) / 2 ^ f.prec + 19 / 10 ^ 15) * Real.Gamma q := by
  have hu := uro_pos_real f
  have hq : (1 / 2 : ℝ) ≤ q := by have := (Rat.cast_le (K := ℝ)).2 h1; push_cast at this; exact this
  have hq2 : (q:ℝ) ≤ tgMax f.ty := by have := (Rat.cast_le (K := ℝ)).2 h2; push_cast at this; exact this
  have hG := Real.Gamma_pos_of_pos (show (0:ℝ) < q by linarith)
  have hL6 : 0 ≤ Real.log ((q:ℝ) + 6) := Real.log_nonneg (by linarith)
  have hT : (tgMax f.ty : ℝ) ≤ 1755 := by rcases f with ⟨⟨⟩, _⟩ <;> norm_num [tgMax]
  have hqL : 0 ≤ (q:ℝ) * Real.log (q + 6) := mul_nonneg (by linarith) hL6
  rcases eq_or_ne q 1 with rfl | hq1
  · refine ⟨1, (C53_tgamma_special hf).2.1 z, one_pos, ?_⟩
    have e : ((1:ℚ):ℝ) - Real.Gamma ((1:ℚ):ℝ) = 0 := by simp
    rw [e, abs_zero]
    positivity
  have hT' : (tgMax f.ty : ℚ) ≤ 1755 := by exact_mod_cast hT
  obtain ⟨l, w, el, bl⟩ := C72_accuracy hf q z hx h1 (by norm_num; linarith)
  rw [tg_pos hf hx ((minNormal_le' f).trans (le_trans (by norm_num) h1)) hq1, el]
  have hL9 : Real.log ((q:ℝ) + 6) ≤ 9 := by
    rw [Real.log_le_iff_le_exp (by linarith)]
    have e : Real.exp 9 = Real.exp 1 ^ 9 := by rw [← Real.exp_nat_mul]; norm_num
    rw [e]
    have : (2.7:ℝ) ^ 9 ≤ Real.exp 1 ^ 9 := pow_le_pow_left₀ (by norm_num) (by have := Real.exp_one_gt_d9; linarith) 9
    refine le_trans ?_ this
    norm_num
    linarith
  have hD : (111 + 22 * (q:ℝ) * Real.log (q + 6)) / 2 ^ f.prec + 18 / 10 ^ 15 ≤ 1 / 1000 := by
    refine le_trans ?_ (tg_small f)
    gcongr
  have ht2 := log_gamma_le_max hq hq2
  obtain ⟨r, er, r0, br⟩ := exp_of_lgamma hf (valid_lgamma el) hD bl (by linarith [log_gamma_ge hq, expMin_ge f.ty]) ht2
  refine ⟨r, er, r0, ?_⟩
  rw [Real.exp_log hG] at br
  refine br.trans (mul_le_mul_of_nonneg_right ?_ hG.le)
  have hab := mul_le_mul_of_nonneg_right (log_gamma_abs_le hq) hu.le
  rw [div_eq_mul_one_div _ ((2:ℝ) ^ f.prec), div_eq_mul_one_div (245 + _) ((2:ℝ) ^ f.prec), ← uro_eq]
  have h7 : 0 ≤ (q:ℝ) * Real.log (q + 6) * uro f := by positivity
  norm_num only at hab ⊢
  linarith

/-- C73: relative error of `tgamma` below one half. -/
theorem C73_small (hf : f.exact = false) (q : ℚ) (z : Bool) (hx : Valid (fin q z : FV f)) (h1 : 8192 / 2 ^ f.prec ≤ q) (h2 : q < 1 / 2) :
    ∃ r, tgamma (fin q z : FV f) = .ok (fin r false) ∧ 0 < r ∧
      |(r:ℝ) - Real.Gamma q| ≤ ((260 + 8 / q) / 2 ^ f.prec + 19 / 10 ^ 15) * Real.Gamma q := by
  have hu := uro_pos_real f
  have hu7 := uro7_real f
  have hq2 : (q:ℝ) < 1 / 2 := by have := (Rat.cast_lt (K := ℝ)).2 h2; push_cast at this; exact this
  have hq8 : 8192 * (uro f : ℝ) ≤ q := by
    have := (Rat.cast_le (K := ℝ)).2 h1
    push_cast at this
    rw [div_eq_mul_one_div, ← uro_eq] at this
    exact this
  have hq0 : (0:ℝ) < q := by linarith
  have hG := Real.Gamma_pos_of_pos hq0
  have hmn : minNormal f ≤ q := by
    have a := minNormal_le_uro f
    have : 8192 * uro f ≤ q := by exact_mod_cast hq8
    have := uro_pos f
    linarith
  obtain ⟨l, w, el, bl⟩ := C72_small hf q z hx (le_trans (div_le_div_of_nonneg_right (by norm_num) (by positivity)) h1) h2
  rw [tg_pos hf hx hmn (by rintro rfl; norm_num at h2), el]
  have hiu : 1 / (q:ℝ) * uro f ≤ 1 / 8192 := by
    rw [div_mul_eq_mul_div, one_mul, div_le_iff₀ hq0]; linarith
  rw [div_eq_mul_one_div _ ((2:ℝ) ^ f.prec), ← uro_eq] at bl ⊢
  have e5 : 5 / (q:ℝ) = 5 * (1 / q) := by ring
  have e8 : 8 / (q:ℝ) = 8 * (1 / q) := by ring
  rw [e5] at bl
  rw [e8]
  have hD : (125 + 5 * (1 / (q:ℝ))) * uro f + 18 / 10 ^ 15 ≤ 1 / 1000 := by
    norm_num only at hu7 hiu ⊢
    linarith
  have hlog := log_gamma_le hq0 (by linarith)
  have hlog0 : 0 ≤ Real.log (Real.Gamma q) := by
    have := (Lan.lg_down hq0 (by linarith : (q:ℝ) ≤ 1) le_rfl).1
    rwa [Real.Gamma_one, Real.log_one, sub_zero] at this
  have hl2 : -Real.log q ≤ 1 / 2 * (1 / q) - 3 / 10 := by
    have a2 : -Real.log (q:ℝ) = Real.log 2 + Real.log (1 / q / 2) := by
      rw [← Real.log_inv, ← Real.log_mul (by norm_num) (by positivity)]; congr 1; field_simp
    have a3 := Real.log_le_sub_one_of_pos (show (0:ℝ) < 1 / q / 2 by positivity)
    have := Real.log_two_lt_d9
    linarith
  have hl3 : Real.log (Real.Gamma q) ≤ expMax f.ty - 1 := by
    have h64 : -Real.log (q:ℝ) ≤ 64 := by
      rw [← Real.log_inv, Real.log_le_iff_le_exp (by positivity), inv_le_comm₀ hq0 (Real.exp_pos _)]
      have := (Rat.cast_le (K := ℝ)).2 (uro_ge f)
      push_cast at this
      refine le_trans ?_ (show (1 / 2 ^ 64 : ℝ) ≤ q by linarith)
      rw [inv_le_comm₀ (Real.exp_pos _) (by positivity), one_div, inv_inv]
      have e : Real.exp 64 = Real.exp 1 ^ 64 := by rw [← Real.exp_nat_mul]; norm_num
      rw [e]
      exact pow_le_pow_left₀ (by norm_num) (by have := Real.exp_one_gt_d9; linarith) 64
    have : (88:ℝ) ≤ expMax f.ty := by rcases f with ⟨⟨⟩, _⟩ <;> norm_num [expMax]
    linarith
  obtain ⟨r, er, r0, br⟩ := exp_of_lgamma hf (valid_lgamma el) hD bl (by linarith [expMin_ge f.ty]) hl3
  refine ⟨r, er, r0, ?_⟩
  rw [Real.exp_log hG] at br
  refine br.trans (mul_le_mul_of_nonneg_right ?_ hG.le)
  rw [abs_of_nonneg hlog0]
  have hab := mul_le_mul_of_nonneg_right (hlog.trans hl2) hu.le
  have h7 : 0 ≤ 1 / (q:ℝ) * uro f := by positivity
  norm_num only at hab ⊢
  linarith

/-- C73, false near zero: up to a quarter of the machine epsilon the result is `+inf`, although the gamma
function is at most `1 / x` there, far inside the range of the type. -/
theorem C73_tiny (hf : f.exact = false) (q : ℚ) (z : Bool) (hx : Valid (fin q z : FV f)) (h1 : minNormal f ≤ q)
    (h2 : q ≤ 1 / 2 / 2 ^ f.prec) : tgamma (fin q z : FV f) = .ok (inf false) ∧ Real.Gamma q ≤ 1 / q := by
  have hq : q ≤ 1 / 2 := h2.trans (by rcases f with ⟨⟨⟩, ⟨⟩⟩ <;> decide +kernel)
  have hq0 : 0 < q := lt_of_lt_of_le (minNormal_pos f) h1
  have hq0' : (0:ℝ) < q := by exact_mod_cast hq0
  obtain ⟨e, b⟩ := C72_tiny hf q z hx h1 h2
  constructor
  · rw [tg_pos hf hx h1 (by rintro rfl; norm_num at hq), e]
    exact C30_special.2.2.1
  · rw [← Real.log_inv, Real.log_le_log_iff (Real.Gamma_pos_of_pos hq0') (by positivity)] at b
    rwa [one_div]

/-- `tgamma(6.0)` is within `10^-10` of `120` -/
example : ∃ r, tgamma (fin 6 false : FV binary64) = .ok (fin r false) ∧ |(r:ℝ) - 120| ≤ 1 / 10 ^ 10 := by
  obtain ⟨r, e, -, b⟩ := C73_accuracy (f := binary64) rfl 6 false (by decide +kernel) (by norm_num) (by norm_num [tgMax])
  refine ⟨r, e, ?_⟩
  have hG : Real.Gamma ((6:ℚ):ℝ) = 120 := by
    have := Real.Gamma_nat_eq_factorial 5
    norm_num [Nat.factorial] at this ⊢
  rw [hG] at b
  have hl : Real.log (((6:ℚ):ℝ) + 6) ≤ 11 := by
    have := Real.log_le_sub_one_of_pos (show (0:ℝ) < ((6:ℚ):ℝ) + 6 by norm_num)
    norm_num at this ⊢; linarith
  refine b.trans ?_
  rw [show binary64.prec = 53 from rfl]
  norm_num at hl ⊢
  linarith

/-- `tgamma(2^-60)` is `+inf`; the true value is about `2^60` -/
example : tgamma (fin (1 / 2 ^ 60) false : FV binary64) = .ok (inf false) :=
  (C73_tiny (f := binary64) rfl (1 / 2 ^ 60) false (by decide +kernel) (by decide +kernel) (by decide +kernel)).1

example : ∃ r, tgamma (fin (1 / 1024) false : FV binary64) = .ok (fin r false) ∧
    |(r:ℝ) - Real.Gamma ((1 / 1024 : ℚ) : ℝ)| ≤ 1 / 10 ^ 11 * Real.Gamma ((1 / 1024 : ℚ) : ℝ) := by
  obtain ⟨r, e, -, b⟩ := C73_small (f := binary64) rfl (1 / 1024) false (by decide +kernel) (by decide +kernel) (by norm_num)
  refine ⟨r, e, b.trans (mul_le_mul_of_nonneg_right ?_ (Real.Gamma_pos_of_pos (by norm_num)).le)⟩
  rw [show binary64.prec = 53 from rfl]
  norm_num

end Gcem.Props
