import Verif.Props.HypAcc
import Verif.Props.LogAcc
import Verif.Props.Pow

/-!
# Accuracy of pow with a floating exponent
-/

namespace Gcem.Props
open Gcem FV
variable {f : Fmt}

/-- `exp(y·l)` when `l` approximates `λ` with relative error `c·u` -/
theorem exp_mul_acc (hf : f.exact = false) {y l : ℚ} {z w : Bool} {lam t c : ℝ} (ht : t = y * lam) (hc0 : 0 ≤ c) (hc : c ≤ 66)
    (hl : |(l:ℝ) - lam| ≤ c * uro f * |lam|) (hb : |t| ≤ expMin f.ty - 1) :
    ∃ r, exp (fin y z * fin l w : FV f) = .ok (fin r false) ∧ 0 < r ∧
      |(r:ℝ) - Real.exp t| ≤ (1041 / 10 * uro f + (|t| + 8) * (1 / 2 ^ 62) + 102 / 100 * (c + 101 / 100) * uro f * |t|) * Real.exp t := by
  have hu : (0:ℝ) < uro f := by exact_mod_cast uro_pos f
  have hu7 : (uro f:ℝ) ≤ 1 / 10 ^ 7 := by have := (Rat.cast_le (K := ℝ)).2 (uro_le7 f); push_cast at this; exact this
  have hem : ((pow2 f.emin / 2 : ℚ) : ℝ) ≤ uro f / 1000 := by
    have := (Rat.cast_le (K := ℝ)).2 (half_emin_uro f); push_cast at this ⊢; exact this
  have huM : (uro f : ℝ) * expMin f.ty ≤ 1 / 100000 := by
    rw [uro_eq]; rcases f with ⟨⟨⟩, e⟩ <;> norm_num [expMin, Fmt.prec, FTy.prec]
  have hM : (expMin f.ty : ℝ) ≤ 11400 := by cases f.ty <;> norm_num [expMin]
  have hT := abs_nonneg t
  have hut : (uro f : ℝ) * |t| ≤ 1 / 100000 := (mul_le_mul_of_nonneg_left (by linarith) hu.le).trans huM
  have hyl : |(y * l : ℝ) - t| ≤ c * (uro f * |t|) := by
    have : (y * l : ℝ) - t = y * (l - lam) := by rw [ht]; ring
    rw [this, abs_mul]
    have h1 := mul_le_mul_of_nonneg_left hl (abs_nonneg (y:ℝ))
    have h2 : |t| = |(y:ℝ)| * |lam| := by rw [ht, abs_mul]
    rw [h2]; linarith
  have hcu : c * (uro f * |t|) ≤ 66 * (uro f * |t|) := mul_le_mul_of_nonneg_right hc (by positivity)
  have habs : |(y * l : ℝ)| ≤ |t| + c * (uro f * |t|) := by
    have := abs_sub_abs_le_abs_sub (y * l : ℝ) t; linarith
  have hno : overflows f (rnd f (y * l)) = false := by
    refine nov ?_
    have : ((|y * l| : ℚ) : ℝ) ≤ ((2 ^ 127 : ℚ) : ℝ) := by push_cast; norm_num only; linarith
    exact_mod_cast this
  obtain ⟨pz, ep⟩ := (is_fin y z).mul (is_fin (f := f) l w) hno
  have vp : Valid (fin (rnd f (y * l)) pz : FV f) := ep ▸ valid_mul _ _
  have er := (Rat.cast_le (K := ℝ)).2 (rnd_err_all (f := f) (y * l))
  rw [ep]
  generalize rnd f (y * l) = P at *
  push_cast at er hem
  generalize (pow2 f.emin : ℝ) = m at *
  have hu1 : (uro f:ℝ) * |(y * l : ℝ)| ≤ uro f * (|t| + c * (uro f * |t|)) := mul_le_mul_of_nonneg_left habs hu.le
  have hu2 : (uro f:ℝ) * (c * (uro f * |t|)) ≤ 1 / 10 ^ 7 * (66 * (uro f * |t|)) := mul_le_mul hu7 hcu (by positivity) (by norm_num)
  have hδ : |(P:ℝ) - t| ≤ (c + 101 / 100) * (uro f * |t|) + uro f / 1000 := by
    have := abs_add_le ((P:ℝ) - y * l) (y * l - t)
    rw [sub_add_sub_cancel] at this
    have : 0 ≤ (uro f : ℝ) * |t| := by positivity
    norm_num at hu2
    linarith
  have hδ1 : |(P:ℝ) - t| ≤ 1 / 1000 := by norm_num at hu7; linarith
  have hPabs : |(P:ℝ)| ≤ |t| + 1 / 1000 := by
    have := abs_sub_abs_le_abs_sub (P : ℝ) t; linarith
  have hPM : |P| ≤ expMin f.ty := by
    have : ((|P| : ℚ) : ℝ) ≤ ((expMin f.ty : ℚ) : ℝ) := by push_cast; linarith
    exact_mod_cast this
  have hle : (expMin f.ty : ℚ) ≤ expMax f.ty := by cases f.ty <;> norm_num [expMin, expMax]
  obtain ⟨l1, l2⟩ := abs_le.1 hPM
  obtain ⟨r, e, r0, hr⟩ := C33_accuracy hf P pz vp l1 (l2.trans hle)
  refine ⟨r, e, r0, ?_⟩
  have hE := expErr_small (f := f) (m := |(P:ℝ)|) (by linarith)
  rw [← uro_eq] at hr hE
  have hsplit : Real.exp P = Real.exp t * Real.exp (P - t) := by rw [← Real.exp_add]; ring_nf
  have h3 := Real.abs_exp_sub_one_sub_id_le (x := P - t) (by linarith)
  have hd2 : |Real.exp (P - t) - 1| ≤ 1001 / 1000 * |(P:ℝ) - t| := by
    have k1 := abs_add_le (Real.exp (P - t) - 1 - (P - t)) (P - t)
    rw [sub_add_cancel] at k1
    have k2 : ((P:ℝ) - t) ^ 2 ≤ 1 / 1000 * |(P:ℝ) - t| := by
      rw [← sq_abs, sq]; exact mul_le_mul_of_nonneg_right hδ1 (abs_nonneg _)
    linarith
  have hx1 : Real.exp (P - t) ≤ 1 + 1001 / 1000 * |(P:ℝ) - t| := by have := (abs_le.1 hd2).2; linarith
  have het := Real.exp_pos t
  have hfin : 104 * (uro f : ℝ) + (|(P:ℝ)| + 7) * (1 / 2 ^ 62) + 1012 / 1000 * |(P:ℝ) - t| ≤
      1041 / 10 * uro f + (|t| + 8) * (1 / 2 ^ 62) + 102 / 100 * (c + 101 / 100) * uro f * |t| := by
    have k : 0 ≤ (c + 101 / 100) * (uro f * |t|) := by positivity
    have k2 : (|(P:ℝ)| + 7) * (1 / 2 ^ 62) ≤ (|t| + 8) * (1 / 2 ^ 62) := mul_le_mul_of_nonneg_right (by linarith) (by norm_num)
    linarith
  have hE0 : 0 ≤ 104 * (uro f : ℝ) + (|(P:ℝ)| + 7) * (1 / 2 ^ 62) := by positivity
  refine le_trans ?_ (mul_le_mul_of_nonneg_right hfin het.le)
  generalize 104 * (uro f : ℝ) + (|(P:ℝ)| + 7) * (1 / 2 ^ 62) = E at *
  rw [hsplit] at hr
  have k1 : (r:ℝ) - Real.exp t = (r - Real.exp t * Real.exp (P - t)) + Real.exp t * (Real.exp (P - t) - 1) := by ring
  rw [k1]
  refine (abs_add_le _ _).trans ?_
  rw [abs_mul, abs_of_pos het]
  have k2 : Real.exp t * |Real.exp (P - t) - 1| ≤ Real.exp t * (1001 / 1000 * |(P:ℝ) - t|) := mul_le_mul_of_nonneg_left hd2 het.le
  have k3 : E * (Real.exp t * Real.exp (P - t)) ≤ E * (Real.exp t * (1 + 1001 / 1000 * |(P:ℝ) - t|)) :=
    mul_le_mul_of_nonneg_left (mul_le_mul_of_nonneg_left hx1 het.le) hE0
  have k4 : E * (Real.exp t * |(P:ℝ) - t|) ≤ 1 / 100 * (Real.exp t * |(P:ℝ) - t|) := mul_le_mul_of_nonneg_right hE (by positivity)
  have k5 : 0 ≤ Real.exp t * |(P:ℝ) - t| := by positivity
  linarith

theorem pow_eq_exp {x : ℚ} {z : Bool} (hx : 0 < x) {l : ℚ} {w : Bool} (y : FV f) (hl : log (fin x z : FV f) = .ok (fin l w)) :
    pow (fin x z : FV f) y = exp (y * fin l w) := by
  rw [pow_nonneg_base (by rw [i_zero, fin_lt]; linarith), hl]; rfl

theorem log_half_lo {x : ℝ} (h0 : 0 < x) (h : x ≤ 1 / 2) : 69 / 100 ≤ |Real.log x| := by
  have h1 : Real.log x ≤ -Real.log 2 := by
    rw [← Real.log_inv]; exact Real.log_le_log h0 (by linarith)
  have := Real.log_two_gt_d9
  exact le_trans (by linarith) (neg_le_abs _)

theorem log_three_half {x : ℝ} (h : 3 / 2 ≤ x) : 4 / 10 ≤ Real.log x := by
  have h1 : Real.log (3 / 2) ≤ Real.log x := Real.log_le_log (by norm_num) h
  have h2 : (4:ℝ) / 10 ≤ Real.log (3 / 2) := by
    rw [Real.le_log_iff_exp_le (by norm_num)]
    have h := Real.exp_bound_div_one_sub_of_interval' (x := 1 / 40) (by norm_num) (by norm_num)
    have e : Real.exp (4 / 10) = Real.exp (1 / 40) ^ 16 := by rw [← Real.exp_nat_mul]; norm_num
    rw [e]
    exact (pow_le_pow_left₀ (Real.exp_pos _).le h.le 16).trans (by norm_num)
  linarith

/-- C65: accuracy of `pow` for every base from `1/2` up, and every exponent for which the power neither overflows nor
gets close to the underflow limit -/
theorem C65_accuracy (hf : f.exact = false) (x y : ℚ) (z w : Bool) (hx : Valid (fin x z : FV f)) (h1 : 1 / 2 ≤ x)
    (hb : |y * Real.log x| ≤ expMin f.ty - 1) :
    ∃ r, pow (fin x z : FV f) (fin y w) = .ok (fin r false) ∧ 0 < r ∧
      |(r:ℝ) - (x:ℝ) ^ (y:ℝ)| ≤
        ((105 + 46 * |y * Real.log x|) * (1 / 2 ^ f.prec) + (|y * Real.log x| + 8) * (1 / 2 ^ 62)) * (x:ℝ) ^ (y:ℝ) := by
  have hx0 : (0:ℝ) < x := by exact_mod_cast (show 0 < x by linarith)
  have hu : (0:ℝ) < uro f := by exact_mod_cast uro_pos f
  have key : ∃ l v, log (fin x z : FV f) = .ok (fin l v) ∧ |(l:ℝ) - Real.log x| ≤ 43 * uro f * |Real.log x| := by
    rcases le_or_gt x (3 / 2) with h2 | h2
    · obtain ⟨l, v, e, h⟩ := C37_direct_range hf x z hx h1 h2
      rw [← uro_eq] at h
      refine ⟨l, v, e, h.trans ?_⟩
      exact mul_le_mul_of_nonneg_right (by linarith) (abs_nonneg _)
    · obtain ⟨l, v, e, h⟩ := C37_ge_one hf x z hx (by linarith)
      rw [← uro_eq] at h
      refine ⟨l, v, e, h.trans ?_⟩
      have hl := log_three_half (x := x) (by have := (Rat.cast_lt (K := ℝ)).2 h2; push_cast at this; linarith)
      rw [abs_of_pos (by linarith)]
      nlinarith
  obtain ⟨l, v, e, h⟩ := key
  obtain ⟨r, er, r0, hr⟩ := exp_mul_acc hf (z := w) (w := v) (c := 43) rfl (by norm_num) (by norm_num) h hb
  refine ⟨r, by rw [pow_eq_exp (by linarith) _ e]; exact er, r0, ?_⟩
  rw [Real.rpow_def_of_pos hx0, mul_comm (Real.log _)]
  refine hr.trans (mul_le_mul_of_nonneg_right ?_ (Real.exp_pos _).le)
  rw [← uro_eq]
  have : 0 ≤ (uro f:ℝ) * |y * Real.log x| := by positivity
  linarith

/-- C65: bases below `1/2` that are not next to a power of ten -/
theorem C65_small_base (hf : f.exact = false) (x y : ℚ) (z w : Bool) (hx : Valid (fin x z : FV f)) (h0 : minNormal f ≤ x) (h1 : x < 1 / 2)
    (hten : ∀ e : ℤ, 1 / 10000 * (10:ℚ) ^ e < |x - 10 ^ e|) (hb : |y * Real.log x| ≤ expMin f.ty - 1) :
    ∃ r, pow (fin x z : FV f) (fin y w) = .ok (fin r false) ∧ 0 < r ∧
      |(r:ℝ) - (x:ℝ) ^ (y:ℝ)| ≤
        ((105 + 67 * |y * Real.log x|) * (1 / 2 ^ f.prec) + (|y * Real.log x| + 8) * (1 / 2 ^ 62)) * (x:ℝ) ^ (y:ℝ) := by
  have hxp : 0 < x := lt_of_lt_of_le (FV.minNormal_pos f) h0
  have hx0 : (0:ℝ) < x := by exact_mod_cast hxp
  have hu : (0:ℝ) < uro f := by exact_mod_cast uro_pos f
  obtain ⟨l, v, j, e, h, -, hj⟩ := C37_small hf x z hx h0 h1
  rw [hj hten, Int.cast_zero, zero_mul, add_zero, ← uro_eq] at h
  have hl := log_half_lo hx0 (by have := (Rat.cast_lt (K := ℝ)).2 h1; push_cast at this; linarith)
  have h' : |(l:ℝ) - Real.log x| ≤ 63 * uro f * |Real.log x| := h.trans (by nlinarith)
  obtain ⟨r, er, r0, hr⟩ := exp_mul_acc hf (z := w) (w := v) (c := 63) rfl (by norm_num) (by norm_num) h' hb
  refine ⟨r, by rw [pow_eq_exp hxp _ e]; exact er, r0, ?_⟩
  rw [Real.rpow_def_of_pos hx0, mul_comm (Real.log _)]
  refine hr.trans (mul_le_mul_of_nonneg_right ?_ (Real.exp_pos _).le)
  rw [← uro_eq]
  have : 0 ≤ (uro f:ℝ) * |y * Real.log x| := by positivity
  linarith

/-- C65: next to a power of ten a small base can be off by a factor of ten: `pow(1e-14, 1.0)` in `double` -/
theorem C65_wrong : ∃ x r : ℚ, (d 1e-14 : FV binary64) = fin x false ∧ pow (fin x false : FV binary64) (fin 1 false) = .ok (fin r false) ∧
    9 * x < r := by
  refine ⟨6338253001141147 / 633825300114114700748351602688, 7922816251426433 / 79228162514264337593543950336, by decide +kernel,
    by decide +kernel, by norm_num⟩

/-- `2^10` in `double` -/
example : ∃ r, pow (fin 2 false : FV binary64) (fin 10 false) = .ok (fin r false) ∧ 0 < r ∧
    |(r:ℝ) - ((2:ℚ):ℝ) ^ ((10:ℚ):ℝ)| ≤
      ((105 + 46 * |((10:ℚ):ℝ) * Real.log (2:ℚ)|) * (1 / 2 ^ 53) + (|((10:ℚ):ℝ) * Real.log (2:ℚ)| + 8) * (1 / 2 ^ 62)) *
        ((2:ℚ):ℝ) ^ ((10:ℚ):ℝ) := by
  refine C65_accuracy (f := binary64) rfl 2 10 false false (by decide +kernel) (by norm_num) ?_
  have h1 := Real.log_two_lt_d9
  have h2 := Real.log_two_gt_d9
  push_cast
  rw [abs_of_pos (by linarith)]
  norm_num [expMin, binary64]
  linarith

end Gcem.Props
