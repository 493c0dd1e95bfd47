import Verif.Props.SmallArg
import Verif.Props.ExpAcc
import Verif.Props.LogAcc
import Verif.Props.Incomplete

/-!
# C34, C39: expm1 and log1p above `1e-4`: absolute error bounds, and the loss of relative accuracy
-/

namespace Gcem.Props
open Gcem FV
variable {f : Fmt}

/-- C34: above `1e-4` the error is that of `exp(x)`, i.e. proportional to `e^x` and not to `e^x - 1`. -/
theorem C34_large (hf : f.exact = false) (q : ℚ) (z : Bool) (hx : Valid (fin q z : FV f))
    (h : fabs (fin q z : FV f) > d 1e-4) (h1 : -(expMin f.ty : ℚ) ≤ q) (h2 : q ≤ expMax f.ty) :
    ∃ r w, expm1 (fin q z : FV f) = .ok (fin r w) ∧
      |(r : ℝ) - (Real.exp q - 1)| ≤ (105 * (1 / 2 ^ f.prec) + (|(q : ℝ)| + 8) * (1 / 2 ^ 62)) * Real.exp q
        + (1 / 2 ^ f.prec) * |Real.exp q - 1| := by
  obtain ⟨e, he, h0, hb⟩ := C33_accuracy hf q z hx h1 h2
  have hv : Valid (fin e false : FV f) := by
    have := okv_exp hf hx
    rw [he] at this; exact this
  have o1 : Is (i 1 : FV f) 1 := by simpa using is_i (f := f) (n := 1) (by norm_num)
  have hov : overflows f (rnd f (e - 1)) = false := by
    rcases le_or_gt 1 e with h | h
    · refine nov_of_lt hv.rep hv.novf ?_
      rw [abs_of_nonneg (by linarith), abs_of_pos (by linarith)]; linarith
    · refine nov (le_trans (b := 1) ?_ (by norm_num))
      rw [abs_le]; constructor <;> linarith
  obtain ⟨w, hw⟩ := (is_fin (f := f) e false).sub o1 hov
  refine ⟨rnd f (e - 1), w, ?_, ?_⟩
  · rw [expm1_large h, he]; exact congrArg _ hw
  have hr := rnd_sub_rel hv.rep (rep_one (f := f))
  have hr' : |((rnd f (e - 1) : ℚ) : ℝ) - (e - 1)| ≤ 1 / 2 ^ f.prec * |(e:ℝ) - 1| := by
    have := (Rat.cast_le (K := ℝ)).2 hr
    push_cast at this
    rwa [uro_eq] at this
  have hu1 : (1 / 2 ^ f.prec : ℝ) ≤ 1 / 16777216 := by rw [← uro_eq]; exact uro_le f
  have hu0 : (0:ℝ) < 1 / 2 ^ f.prec := by positivity
  have hqa : |(q:ℝ)| ≤ 11400 := by
    have : |q| ≤ 11400 := by
      have a : (expMin f.ty : ℚ) ≤ 11400 := by rcases f with ⟨⟨⟩, ⟨⟩⟩ <;> decide +kernel
      have b : (expMax f.ty : ℚ) ≤ 11400 := by rcases f with ⟨⟨⟩, ⟨⟩⟩ <;> decide +kernel
      rw [abs_le]; constructor <;> linarith
    have := (Rat.cast_le (K := ℝ)).2 this; push_cast at this; exact this
  generalize ((rnd f (e - 1) : ℚ) : ℝ) = r at *
  generalize (1 / 2 ^ f.prec : ℝ) = u at *
  have hE := Real.exp_pos (q:ℝ)
  generalize Real.exp (q:ℝ) = E at *
  have hq0 := abs_nonneg (q:ℝ)
  generalize |(q:ℝ)| = A at *
  have t : |(e:ℝ) - 1| ≤ |(e:ℝ) - E| + |E - 1| := by
    calc |(e:ℝ) - 1| = |((e:ℝ) - E) + (E - 1)| := by ring_nf
      _ ≤ _ := abs_add_le _ _
  have t2 : |r - (E - 1)| ≤ |r - (e - 1)| + |(e:ℝ) - E| := by
    calc |r - (E - 1)| = |(r - (e - 1)) + ((e:ℝ) - E)| := by ring_nf
      _ ≤ _ := abs_add_le _ _
  have t3 := mul_le_mul_of_nonneg_left t hu0.le
  have t4 : (1 + u) * |(e:ℝ) - E| ≤ (1 + u) * ((104 * u + (A + 7) * (1 / 2 ^ 62)) * E) :=
    mul_le_mul_of_nonneg_left hb (by linarith)
  have t5 : (1 + u) * (104 * u + (A + 7) * (1 / 2 ^ 62)) ≤ 105 * u + (A + 8) * (1 / 2 ^ 62) := by
    have c : (0:ℝ) < 1 / 2 ^ 62 := by positivity
    generalize (1 / 2 ^ 62 : ℝ) = k at *
    have : u * (A + 7) ≤ 1 := by nlinarith
    nlinarith
  have t6 := mul_le_mul_of_nonneg_right t5 hE.le
  nlinarith

theorem log1p_sum {q : ℚ} (h1 : -(1 / 2) ≤ q) (h2 : q ≤ 2 ^ 126) :
    overflows f (rnd f (1 + q)) = false ∧ 1 / 2 ≤ rnd f (1 + q) ∧
      |Real.log (rnd f (1 + q) : ℚ) - Real.log (1 + q)| ≤ 1001 / 1000 * (1 / 2 ^ f.prec) := by
  have hmn : minNormal f ≤ 1 + q := by have := minNormal_le_uro f; have := uro_lt_half f; linarith
  have hr : Rep f (1 / 2) := by
    have := rep_pow2 (f := f) (e := -1) (by rcases f with ⟨⟨⟩, ⟨⟩⟩ <;> decide)
    rwa [show pow2 (-1) = 1 / 2 by norm_num [pow2_eq]] at this
  obtain ⟨θ, hn, hθ⟩ := rnd_near (f := f) hmn
  refine ⟨nov ?_, le_rnd_of_rep hr (by linarith), ?_⟩
  · rw [abs_of_pos (by linarith)]; norm_num at h2 ⊢; linarith
  have hθ0 : (0:ℝ) < θ := by exact_mod_cast near_pos (by have := uro_lt_half f; linarith) hn
  have hq : (0:ℝ) < 1 + q := by exact_mod_cast (show 0 < 1 + q by linarith)
  have := log_near hn
  rw [hθ]; push_cast
  rw [Real.log_mul hq.ne' hθ0.ne', add_sub_cancel_left]
  rw [Nat.cast_one, one_mul, uro_eq] at this
  exact this

/-- C39: for `-1/2 ≤ x ≤ 1/2` outside the polynomial's range, `log1p(x)` has the error of `log` plus that of rounding
`1 + x`: absolute, not relative to `ln(1+x)`. -/
theorem C39_large (hf : f.exact = false) (q : ℚ) (z : Bool)
    (h : fabs (fin q z : FV f) > d 1e-4) (h1 : -(1 / 2) ≤ q) (h2 : q ≤ 2 ^ 126) :
    ∃ r w, log1p (fin q z : FV f) = .ok (fin r w) ∧
      (q ≤ 1 / 2 → |(r : ℝ) - Real.log (1 + q)| ≤ (2 + 5 * |Real.log (1 + q)|) * (1 / 2 ^ f.prec)) ∧
      (0 ≤ q → |(r : ℝ) - Real.log (1 + q)| ≤ (17 + 5 * Real.log (1 + q)) * (1 / 2 ^ f.prec)) := by
  obtain ⟨hov, hlo, hl⟩ := log1p_sum (f := f) h1 h2
  have o1 : Is (i 1 : FV f) 1 := by simpa using is_i (f := f) (n := 1) (by norm_num)
  obtain ⟨w0, hw0⟩ := o1.add (is_fin (f := f) q z) hov
  have hv : Valid (fin (rnd f (1 + q)) w0 : FV f) := by rw [← hw0]; exact valid_add _ _
  rw [log1p_large h, hw0]
  have hu1 : (1 / 2 ^ f.prec : ℝ) ≤ 1 / 16777216 := by rw [← uro_eq]; exact uro_le f
  have hu0 : (0:ℝ) < 1 / 2 ^ f.prec := by positivity
  have near : ∀ r : ℝ, |r - Real.log (1 + q)| ≤ |r - Real.log (rnd f (1 + q) : ℚ)| + 1001 / 1000 * (1 / 2 ^ f.prec) := by
    intro r
    calc |r - Real.log (1 + q)| = |(r - Real.log (rnd f (1 + q) : ℚ)) + (Real.log (rnd f (1 + q) : ℚ) - Real.log (1 + q))| := by
          ring_nf
      _ ≤ _ := (abs_add_le _ _).trans (by gcongr)
  have R1 : Rep f 1 := rep_one
  have R32 : Rep f (3 / 2) := by
    have : ((3:ℤ):ℚ) * pow2 (-1) = 3 / 2 := by norm_num [pow2_eq]
    rw [← this]
    exact rep_of_scaled (by rcases f with ⟨⟨⟩, ⟨⟩⟩ <;> decide) (by rcases f with ⟨⟨⟩, ⟨⟩⟩ <;> decide)
  rcases le_or_gt q (1 / 2) with hq | hq
  · have hhi : rnd f (1 + q) ≤ 3 / 2 := rnd_le_of_rep R32 (by linarith)
    obtain ⟨r, w, e1, e2⟩ := C37_direct_range hf _ w0 hv hlo hhi
    refine ⟨r, w, e1, ?_⟩
    have key : |(r : ℝ) - Real.log (1 + q)| ≤ (2 + 5 * |Real.log (1 + q)|) * (1 / 2 ^ f.prec) := by
      refine (near r).trans ?_
      have t : |Real.log (rnd f (1 + q) : ℚ)| ≤ |Real.log (1 + q)| + 1001 / 1000 * (1 / 2 ^ f.prec) := by
        calc |Real.log (rnd f (1 + q) : ℚ)| =
            |Real.log (1 + q) + (Real.log (rnd f (1 + q) : ℚ) - Real.log (1 + q))| := by ring_nf
          _ ≤ _ := (abs_add_le _ _).trans (by gcongr)
      generalize (1 / 2 ^ f.prec : ℝ) = u at *
      nlinarith
    refine ⟨fun _ => key, fun h0 => key.trans ?_⟩
    have h0' : (0:ℝ) ≤ q := by exact_mod_cast h0
    have h3 : 0 ≤ Real.log (1 + q) := Real.log_nonneg (by linarith)
    rw [abs_of_nonneg h3]
    exact mul_le_mul_of_nonneg_right (by linarith) hu0.le
  · have hlo' : 1 ≤ rnd f (1 + q) := le_rnd_of_rep R1 (by linarith)
    obtain ⟨r, w, e1, e2⟩ := C37_ge_one hf _ w0 hv hlo'
    refine ⟨r, w, e1, fun h => absurd h (by linarith), fun _ => (near r).trans ?_⟩
    have t := (abs_le.1 hl).2
    generalize (1 / 2 ^ f.prec : ℝ) = u at *
    nlinarith

/-- C34: just above `1e-4` the relative error of `expm1` exceeds `10000 u`. -/
theorem C34_inaccurate : ∃ x r : ℚ, Valid (fin x false : FV binary64) ∧ 1 / 10000 < x ∧ x < 101 / 1000000 ∧
    expm1 (fin x false : FV binary64) = .ok (fin r false) ∧
    10000 * (1 / 2 ^ 53) * |Real.exp x - 1| < |(r : ℝ) - (Real.exp x - 1)| := by
  refine ⟨462552107648267 / 4611686018427387904, 112933424173 / 1125899906842624, by decide +kernel, by norm_num,
    by norm_num, by decide +kernel, ?_⟩
  set x : ℝ := ((462552107648267 / 4611686018427387904 : ℚ) : ℝ) with hx
  have hxv : x = 462552107648267 / 4611686018427387904 := by rw [hx]; norm_num
  have hb := Real.exp_bound (x := x) (by rw [hxv, abs_of_pos (by norm_num)]; norm_num) (n := 6) (by norm_num)
  norm_num [Finset.sum_range_succ, Nat.factorial] at hb
  rw [hxv]
  generalize Real.exp _ = E at *
  rw [abs_le] at hb
  norm_num at hb
  rw [abs_of_pos (by linarith), lt_abs]
  left
  norm_num
  linarith

/-- C39: just above `1e-4` the relative error of `log1p` exceeds `9000 u`. -/
theorem C39_inaccurate : ∃ x r : ℚ, Valid (fin x false : FV binary64) ∧ 1 / 10000 < x ∧ x < 101 / 1000000 ∧
    log1p (fin x false : FV binary64) = .ok (fin r false) ∧
    9000 * (1 / 2 ^ 53) * |Real.log (1 + x)| < |(r : ℝ) - Real.log (1 + x)| := by
  refine ⟨1855742453815181 / 18446744073709551616, 7422596464910439 / 73786976294838206464, by decide +kernel, by norm_num,
    by norm_num, by decide +kernel, ?_⟩
  set x : ℝ := ((1855742453815181 / 18446744073709551616 : ℚ) : ℝ) with hx
  have hxv : x = 1855742453815181 / 18446744073709551616 := by rw [hx]; norm_num
  have hb := Real.abs_log_sub_add_sum_range_le (x := -x) (by rw [abs_neg, hxv, abs_of_pos (by norm_num)]; norm_num) 5
  rw [abs_neg, sub_neg_eq_add, hxv, abs_of_pos (show (0:ℝ) < 1855742453815181 / 18446744073709551616 by norm_num)] at hb
  norm_num [Finset.sum_range_succ] at hb
  rw [hxv]
  norm_num
  generalize Real.log _ = E at *
  rw [abs_le] at hb
  norm_num at hb
  rw [abs_of_pos (show 0 < E by linarith), lt_abs]
  right
  linarith

/-- the smallest positive subnormal `double` -/
example : ∃ r w, expm1 (fin (1 / 2 ^ 1074) false : FV binary64) = .ok (fin r w) ∧
    |(r : ℝ) - (Real.exp (1 / 2 ^ 1074 : ℚ) - 1)| ≤ 2 * (1 / 2 ^ 53) * |Real.exp (1 / 2 ^ 1074 : ℚ) - 1| :=
  C34_accuracy (f := binary64) rfl _ false (by decide +kernel) (by decide +kernel)

example : ∃ r w, log1p (fin (-1 / 16384) false : FV binary32) = .ok (fin r w) ∧
    |(r : ℝ) - Real.log (1 + (-1 / 16384 : ℚ))| ≤ 2 * (1 / 2 ^ 24) * |Real.log (1 + (-1 / 16384 : ℚ))| :=
  C39_accuracy (f := binary32) rfl _ false (by decide +kernel) (by decide +kernel)

example : ∃ r w, expm1 (fin (-700) false : FV binary64) = .ok (fin r w) ∧
    |(r : ℝ) - (Real.exp (-700 : ℚ) - 1)| ≤ (105 * (1 / 2 ^ 53) + (|((-700 : ℚ) : ℝ)| + 8) * (1 / 2 ^ 62)) *
      Real.exp (-700 : ℚ) + (1 / 2 ^ 53) * |Real.exp (-700 : ℚ) - 1| :=
  C34_large (f := binary64) rfl (-700) false (by decide +kernel) (by decide +kernel) (by decide +kernel) (by decide +kernel)

example : ∃ r w, log1p (fin (2 ^ 100) false : FV binary32) = .ok (fin r w) ∧
    |(r : ℝ) - Real.log (1 + (2 ^ 100 : ℚ))| ≤ (17 + 5 * Real.log (1 + (2 ^ 100 : ℚ))) * (1 / 2 ^ 24) := by
  obtain ⟨r, w, h, -, h2⟩ := C39_large (f := binary32) rfl (2 ^ 100) false (by decide +kernel) (by norm_num) (by norm_num)
  exact ⟨r, w, h, h2 (by norm_num)⟩

end Gcem.Props
