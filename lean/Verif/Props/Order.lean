import Verif.Props.RoundTrip
import Verif.Props.TanhAcc
import Verif.Props.LgammaTerm
import Verif.Props.Sqrt

/-! # C94: order of the results for arguments that are far enough apart -/

namespace Gcem.Props
open FV

variable {f : Fmt}

/-- two approximations with relative errors keep the order of well separated numbers -/
theorem ord_rel {a b A B ε : ℝ} (e0 : 0 ≤ ε) (A0 : 0 ≤ A) (B0 : 0 ≤ B) (ha : |a - A| ≤ ε * A) (hb : |b - B| ≤ ε * B)
    (h : (1 + ε) * A < (1 - ε) * B) : a < b := by
  have h1 := abs_le.1 ha
  have h2 := abs_le.1 hb
  linarith

theorem ord_lt {r s : ℚ} (h : (r:ℝ) < s) (w v : Bool) : (fin r w : FV f) < fin s v :=
  ((is_fin r w).lt_iff (is_fin s v)).2 (by exact_mod_cast h)

/-- C94, `exp`: if `y ≥ x + 210 u + (max |x| |y| + 7) / 2^60` then `exp(x) < exp(y)`. -/
theorem C94_exp (hf : f.exact = false) (x y : ℚ) (z w : Bool) (hx : Valid (fin x z : FV f)) (hy : Valid (fin y w : FV f))
    (h1 : -(expMin f.ty : ℚ) ≤ x) (h2 : y ≤ expMax f.ty)
    (h : (x:ℝ) + 210 * (1 / 2 ^ f.prec) + (max |(x:ℝ)| |(y:ℝ)| + 7) * (1 / 2 ^ 60) ≤ y) :
    ∃ a b : FV f, exp (fin x z) = .ok a ∧ exp (fin y w) = .ok b ∧ a < b := by
  have u0 := uro_pos_real f
  have u1 := uro7_real f
  rw [← uro_eq] at h
  have m0 : 0 ≤ max |(x:ℝ)| |(y:ℝ)| := le_trans (abs_nonneg _) (le_max_left _ _)
  have hxy' : (x:ℝ) ≤ y := by
    have : 0 ≤ (max |(x:ℝ)| |(y:ℝ)| + 7) * (1 / 2 ^ 60) := by positivity
    linarith
  have hxy : x ≤ y := by exact_mod_cast hxy'
  obtain ⟨r, er, -, br⟩ := C33_accuracy hf x z hx h1 (hxy.trans h2)
  obtain ⟨s, es, -, bs⟩ := C33_accuracy hf y w hy (h1.trans hxy) h2
  refine ⟨_, _, er, es, ord_lt ?_ _ _⟩
  rw [← uro_eq] at br bs
  set M := max |(x:ℝ)| |(y:ℝ)| with hM
  set ε : ℝ := 104 * uro f + (M + 7) * (1 / 2 ^ 62) with hε
  have e0 : 0 ≤ ε := by positivity
  have ba : |(r:ℝ) - Real.exp x| ≤ ε * Real.exp x := br.trans (by
    rw [hε]; gcongr; exact le_max_left _ _)
  have bb : |(s:ℝ) - Real.exp y| ≤ ε * Real.exp y := bs.trans (by
    rw [hε]; gcongr; exact le_max_right _ _)
  have M1 : M ≤ 12000 := by
    have k1 : (expMin f.ty : ℚ) ≤ 12000 ∧ (expMax f.ty : ℚ) ≤ 12000 := by
      rcases f with ⟨⟨⟩, ⟨⟩⟩ <;> decide +kernel
    have k2 : (-12000 : ℝ) ≤ x := by
      have := (Rat.cast_le (K := ℝ)).2 (show (-12000 : ℚ) ≤ x by linarith [k1.1])
      push_cast at this; exact this
    have k3 : (y:ℝ) ≤ 12000 := by
      have := (Rat.cast_le (K := ℝ)).2 (show y ≤ 12000 by linarith [k1.2])
      push_cast at this; exact this
    exact max_le (abs_le.2 ⟨k2, by linarith⟩) (abs_le.2 ⟨by linarith, k3⟩)
  have e1 : ε ≤ 1 / 10 ^ 4 := by
    rw [hε]
    have : (M + 7) * (1 / 2 ^ 62) ≤ (12000 + 7) * (1 / 2 ^ 62) := by gcongr
    norm_num at this u1 ⊢
    linarith
  refine ord_rel e0 (Real.exp_pos _).le (Real.exp_pos _).le ba bb ?_
  have k : Real.exp y = Real.exp x * Real.exp (y - x) := by rw [← Real.exp_add]; ring_nf
  have k2 := Real.add_one_le_exp ((y:ℝ) - x)
  have d1 : 201 / 100 * ε ≤ (y:ℝ) - x := by
    rw [hε]
    have : (0:ℝ) ≤ M + 7 := by linarith
    norm_num at h ⊢
    linarith
  have ep : 0 < ε := by rw [hε]; positivity
  rw [k, mul_comm, mul_left_comm]
  refine mul_lt_mul_of_pos_left ?_ (Real.exp_pos _)
  have : (1 - ε) * (1 + 201 / 100 * ε) ≤ (1 - ε) * Real.exp (y - x) := by
    refine mul_le_mul_of_nonneg_left (by linarith) (by linarith)
  norm_num at e1
  nlinarith

theorem ord_sqrt {x y ε c : ℝ} (x0 : 0 < x) (e0 : 0 ≤ ε) (e1 : ε < 1) (c0 : 0 ≤ c) (h : x * (1 + c) ≤ y)
    (hc : (1 + ε) ^ 2 < (1 - ε) ^ 2 * (1 + c)) : (1 + ε) * √x < (1 - ε) * √y := by
  have h1 : √(x * (1 + c)) ≤ √y := Real.sqrt_le_sqrt h
  refine lt_of_lt_of_le ?_ (mul_le_mul_of_nonneg_left h1 (by linarith))
  have k1 : (1 + ε) * √x = √((1 + ε) ^ 2 * x) := by rw [Real.sqrt_mul (by positivity), Real.sqrt_sq (by linarith)]
  have k2 : (1 - ε) * √(x * (1 + c)) = √((1 - ε) ^ 2 * (x * (1 + c))) := by rw [Real.sqrt_mul (sq_nonneg (1 - ε)), Real.sqrt_sq (by linarith)]
  rw [k1, k2]
  refine Real.sqrt_lt_sqrt (by positivity) ?_
  nlinarith

/-- C94, `log`: for `1/2 ≤ x < y`, if `x ≤ y (1 - (36 + 10 |ln y|) u)` then `log(x) < log(y)`. -/
theorem C94_log (hf : f.exact = false) (x y : ℚ) (z w : Bool) (hx : Valid (fin x z : FV f)) (hy : Valid (fin y w : FV f))
    (h1 : 1 / 2 ≤ x) (hxy : x < y) (h : (x:ℝ) ≤ y * (1 - (36 + 10 * |Real.log y|) * (1 / 2 ^ f.prec))) :
    ∃ a b : FV f, log (fin x z) = .ok a ∧ log (fin y w) = .ok b ∧ a < b := by
  have u0 := uro_pos_real f
  have u1 := uro7_real f
  rw [← uro_eq] at h
  have hx0 : (1 / 2 : ℝ) ≤ x := by have := (Rat.cast_le (K := ℝ)).2 h1; push_cast at this; exact this
  have hxy' : (x:ℝ) < y := by exact_mod_cast hxy
  have y0 : (0:ℝ) < y := by linarith
  have pos : 0 < (36 + 10 * |Real.log y|) * (uro f:ℝ) := by positivity
  obtain ⟨r, wr, er, br⟩ := log_half_up hf hx h1
  obtain ⟨s, ws, es, bs⟩ := log_half_up hf hy (h1.trans hxy.le)
  refine ⟨_, _, er, es, ord_lt ?_ _ _⟩
  have hl : |Real.log x| ≤ |Real.log y| + 1 := by
    have k1 := Real.log_le_log (by linarith) hxy'.le
    have k2 := Real.one_sub_inv_le_log_of_pos (show (0:ℝ) < x by linarith)
    have k3 : (x:ℝ)⁻¹ ≤ 2 := by rw [inv_le_comm₀ (by linarith) (by norm_num)]; linarith
    have k4 := le_abs_self (Real.log y)
    have k5 := abs_nonneg (Real.log y)
    exact abs_le.2 ⟨by linarith, by linarith⟩
  have gap : (36 + 10 * |Real.log y|) * (uro f:ℝ) ≤ Real.log y - Real.log x := by
    have k1 := Real.one_sub_inv_le_log_of_pos (show (0:ℝ) < y / x by positivity)
    rw [Real.log_div y0.ne' (by linarith), inv_div] at k1
    have k2 : (x:ℝ) / y ≤ 1 - (36 + 10 * |Real.log y|) * (uro f:ℝ) := by rw [div_le_iff₀ y0]; linarith
    linarith
  have a1 := abs_le.1 br
  have a2 := abs_le.1 bs
  have a3 : (15 + 5 * |Real.log (x:ℝ)|) * (uro f:ℝ) ≤ (20 + 5 * |Real.log (y:ℝ)|) * uro f := by
    refine mul_le_mul_of_nonneg_right (by linarith) u0.le
  linarith

/-- C94, `log`: far apart is not enough for small arguments.  In `double`, `log(1e-14)` is larger than `log(5e-14)`. -/
theorem C94_log_small : ∃ x y : ℚ, ∃ a b : FV binary64, (d 1e-14 : FV binary64) = fin x false ∧ (d 5e-14 : FV binary64) = fin y false ∧
    49 / 10 * x < y ∧ log (fin x false : FV binary64) = .ok a ∧ log (fin y false : FV binary64) = .ok b ∧ b < a := by
  refine ⟨6338253001141147/633825300114114700748351602688, 3961408125713217/79228162514264337593543950336,
    fin (-8425561110522435/281474976710656) false, fin (-8620664697027603/281474976710656) false, by decide +kernel, by decide +kernel,
    by norm_num, by decide +kernel, by decide +kernel, ord_lt (by norm_num) _ _⟩

/-- C94, `sqrt`: arguments that differ by a few units in the last place keep their order. -/
theorem C94_sqrt_upto4 (hf : f.exact = false) (x y : ℚ) (z w : Bool) (hx : Valid (fin x z : FV f)) (hy : Valid (fin y w : FV f))
    (hn : minNormal f ≤ x) (h1 : (1:ℚ) / 2 ^ 180 ≤ x) (h4 : y ≤ 4) (h : x * (1 + 13 / 2 ^ f.prec) ≤ y) :
    ∃ a b : FV f, sqrt (fin x z) = .ok a ∧ sqrt (fin y w) = .ok b ∧ a < b := by
  have u0 := uro_pos_real f
  have u1 := uro7_real f
  have x0 : 0 < x := lt_of_lt_of_le (by norm_num) h1
  have hxy : x ≤ y := le_trans (by nlinarith [show (0:ℚ) < 13 / 2 ^ f.prec by positivity]) h
  obtain ⟨r, er, br⟩ := C26_upto4 hf x z hx hn h1 (hxy.trans h4)
  obtain ⟨s, es, bs⟩ := C26_upto4 hf y w hy (hn.trans hxy) (h1.trans hxy) h4
  refine ⟨_, _, er, es, ord_lt ?_ _ _⟩
  have e3 : (3:ℝ) / 2 ^ f.prec = 3 * uro f := by rw [uro_eq]; ring
  rw [e3] at br bs
  have hr := (Rat.cast_le (K := ℝ)).2 h
  push_cast at hr
  rw [show (13:ℝ) / 2 ^ f.prec = 13 * uro f by rw [uro_eq]; ring] at hr
  exact ord_rel (by positivity) (Real.sqrt_nonneg _) (Real.sqrt_nonneg _) br bs
    (ord_sqrt (by exact_mod_cast x0) (by positivity) (by norm_num at u1 ⊢; linarith) (by positivity) hr
      (by nlinarith [mul_pos u0 u0, mul_pos (mul_pos u0 u0) u0, mul_le_mul_of_nonneg_left u1 u0.le]))

/-- C94, `sqrt` in general: the factor depends on the type -/
theorem C94_sqrt (x y : ℚ) (z w : Bool) :
    (Valid (fin x z : FV binary32) → Valid (fin y w : FV binary32) → 1 / 2 ^ 126 ≤ x → x * (1 + 73 / 2 ^ 24) ≤ y →
      ∃ a b : FV binary32, sqrt (fin x z) = .ok a ∧ sqrt (fin y w) = .ok b ∧ a < b) ∧
    (Valid (fin x z : FV binary64) → Valid (fin y w : FV binary64) → 1 / 2 ^ 180 ≤ x → x * (1 + 285 / 2 ^ 53) ≤ y →
      ∃ a b : FV binary64, sqrt (fin x z) = .ok a ∧ sqrt (fin y w) = .ok b ∧ a < b) ∧
    (Valid (fin x z : FV x87) → Valid (fin y w : FV x87) → 1 / 2 ^ 180 ≤ x → x * (1 + 3877 / 2 ^ 64) ≤ y →
      ∃ a b : FV x87, sqrt (fin x z) = .ok a ∧ sqrt (fin y w) = .ok b ∧ a < b) := by
  refine ⟨fun hx hy h1 h => ?_, fun hx hy h1 h => ?_, fun hx hy h1 h => ?_⟩
  · have x0 : 0 < x := lt_of_lt_of_le (by norm_num) h1
    have hxy : x ≤ y := le_trans (by nlinarith) h
    obtain ⟨r, er, br⟩ := C26_float x z hx h1
    obtain ⟨s, es, bs⟩ := C26_float y w hy (h1.trans hxy)
    refine ⟨_, _, er, es, ord_lt ?_ _ _⟩
    have hr := (Rat.cast_le (K := ℝ)).2 h
    push_cast at hr
    exact ord_rel (by norm_num) (Real.sqrt_nonneg _) (Real.sqrt_nonneg _) br bs
      (ord_sqrt (by exact_mod_cast x0) (by norm_num) (by norm_num) (by norm_num) hr (by norm_num))
  · have x0 : 0 < x := lt_of_lt_of_le (by norm_num) h1
    have hxy : x ≤ y := le_trans (by nlinarith) h
    obtain ⟨r, er, br⟩ := C26_double x z hx h1
    obtain ⟨s, es, bs⟩ := C26_double y w hy (h1.trans hxy)
    refine ⟨_, _, er, es, ord_lt ?_ _ _⟩
    have hr := (Rat.cast_le (K := ℝ)).2 h
    push_cast at hr
    exact ord_rel (by norm_num) (Real.sqrt_nonneg _) (Real.sqrt_nonneg _) br bs
      (ord_sqrt (by exact_mod_cast x0) (by norm_num) (by norm_num) (by norm_num) hr (by norm_num))
  · have x0 : 0 < x := lt_of_lt_of_le (by norm_num) h1
    have hxy : x ≤ y := le_trans (by nlinarith) h
    obtain ⟨r, er, br⟩ := C26_long_double x z hx h1
    obtain ⟨s, es, bs⟩ := C26_long_double y w hy (h1.trans hxy)
    refine ⟨_, _, er, es, ord_lt ?_ _ _⟩
    have hr := (Rat.cast_le (K := ℝ)).2 h
    push_cast at hr
    exact ord_rel (by norm_num) (Real.sqrt_nonneg _) (Real.sqrt_nonneg _) br bs
      (ord_sqrt (by exact_mod_cast x0) (by norm_num) (by norm_num) (by norm_num) hr (by norm_num))

theorem ord_arctan {x y : ℝ} (x0 : 0 ≤ x) (hxy : x < y) : (y - x) / (1 + y ^ 2) ≤ Real.arctan y - Real.arctan x := by
  obtain ⟨c, hc, e⟩ := exists_deriv_eq_slope Real.arctan hxy Real.continuous_arctan.continuousOn
    (fun t _ => Real.differentiable_arctan.differentiableAt.differentiableWithinAt)
  rw [Real.deriv_arctan, eq_div_iff (by linarith)] at e
  rw [← e, div_eq_mul_one_div, mul_comm]
  refine mul_le_mul_of_nonneg_right ?_ (by linarith)
  have h1 := hc.1
  have h2 := hc.2
  refine one_div_le_one_div_of_le (by positivity) ?_
  nlinarith

/-- C94, `atan`: if `y - x > (24 u + 4/10^17) (1 + y^2) arctan y` then `atan(x) < atan(y)`. -/
theorem C94_atan (hf : f.exact = false) (x y : ℚ) (z w : Bool) (hx : Valid (fin x z : FV f)) (hy : Valid (fin y w : FV f))
    (h1 : minNormal f ≤ x) (h : (24 * (1 / 2 ^ f.prec) + 4 / 10 ^ 17) * (1 + (y:ℝ) ^ 2) * Real.arctan y < y - x) (hxy : x < y) :
    atan (fin x z : FV f) < atan (fin y w : FV f) := by
  have u0 := uro_pos_real f
  have x0 : 0 < x := lt_of_lt_of_le (minNormal_pos f) h1
  have x0r : (0:ℝ) < x := by exact_mod_cast x0
  have hxyr : (x:ℝ) < y := by exact_mod_cast hxy
  obtain ⟨r, wr, er, br⟩ := C45_accuracy hf x z hx (by rw [abs_of_pos x0]; exact h1)
  obtain ⟨s, ws, es, bs⟩ := C45_accuracy hf y w hy (by rw [abs_of_pos (by linarith)]; linarith)
  rw [er, es]
  refine ord_lt ?_ _ _
  rw [← uro_eq] at h br bs
  have ax := Real.arctan_nonneg.2 x0r.le
  have ay := Real.arctan_strictMono hxyr
  rw [abs_of_nonneg ax] at br
  rw [abs_of_nonneg (show 0 ≤ Real.arctan y by linarith)] at bs
  have gap := ord_arctan x0r.le hxyr
  have gap2 : (24 * (uro f:ℝ) + 4 / 10 ^ 17) * Real.arctan y < (y - x) / (1 + (y:ℝ) ^ 2) := by
    rw [lt_div_iff₀ (by positivity)]; linarith
  have a1 := abs_le.1 br
  have a2 := abs_le.1 bs
  have b1 : (11 * (uro f:ℝ) + 163 / 10 ^ 19) * Real.arctan x ≤ (12 * uro f + 2 / 10 ^ 17) * Real.arctan y :=
    mul_le_mul (by norm_num; linarith) ay.le ax (by positivity)
  have b2 : (11 * (uro f:ℝ) + 163 / 10 ^ 19) * Real.arctan y ≤ (12 * uro f + 2 / 10 ^ 17) * Real.arctan y :=
    mul_le_mul_of_nonneg_right (by norm_num; linarith) (by linarith)
  linarith

/-- C94: neighbouring arguments can be reversed.  `exp` at `1 + 2^-23`, `atan` and `tanh` between 2 and 4, all in `float`. -/
theorem C94_neighbours :
    (∃ a b : FV binary32, exp (fin (8388609 / 8388608) false : FV binary32) = .ok a ∧ exp (fin (8388610 / 8388608) false : FV binary32) = .ok b ∧ b < a) ∧
    (∃ a b : FV binary64, exp (fin (4503599627370498 / 4503599627370496) false : FV binary64) = .ok a ∧
      exp (fin (4503599627370499 / 4503599627370496) false : FV binary64) = .ok b ∧ b < a) ∧
    atan (fin (8388614 / 4194304) false : FV binary32) < atan (fin (8388613 / 4194304) false : FV binary32) ∧
    tanh (fin (12582925 / 4194304) false : FV binary32) < tanh (fin (12582924 / 4194304) false : FV binary32) := by
  refine ⟨⟨fin (1425163/524288) false, fin (5700651/2097152) false, by decide +kernel, by decide +kernel, ord_lt (by norm_num) _ _⟩,
    ⟨fin (6121026514868077/2251799813685248) false, fin (6121026514868075/2251799813685248) false, by decide +kernel, by decide +kernel,
      ord_lt (by norm_num) _ _⟩, by decide +kernel, by decide +kernel⟩

/-- C94_exp for concrete arguments: `exp(1) < exp(1 + 2^-44)` in `double` -/
example : ∃ a b : FV binary64, exp (fin 1 false) = .ok a ∧ exp (fin (1 + 1 / 2 ^ 44) false) = .ok b ∧ a < b := by
  refine C94_exp rfl 1 (1 + 1 / 2 ^ 44) false false (by decide +kernel) (by decide +kernel) (by decide +kernel) (by decide +kernel) ?_
  rw [max_eq_right (by norm_num), abs_of_pos (by norm_num)]
  norm_num [Fmt.prec, FTy.prec]

/-- C94_log for concrete arguments in `float` -/
example : ∃ a b : FV binary32, log (fin (1 / 2) false) = .ok a ∧ log (fin 1 false) = .ok b ∧ a < b := by
  refine C94_log rfl (1 / 2) 1 false false (by decide +kernel) (by decide +kernel) (by norm_num) (by norm_num) ?_
  norm_num [Fmt.prec, FTy.prec]

/-- C94_sqrt_upto4 for concrete arguments: seven neighbours further in `float` -/
example : ∃ a b : FV binary32, sqrt (fin 1 false) = .ok a ∧ sqrt (fin (1 + 7 / 2 ^ 23) false) = .ok b ∧ a < b :=
  C94_sqrt_upto4 rfl 1 (1 + 7 / 2 ^ 23) false false (by decide +kernel) (by decide +kernel) (by decide +kernel) (by norm_num) (by norm_num)
    (by norm_num [Fmt.prec, FTy.prec])

/-- C94_sqrt for concrete arguments in `double` -/
example : ∃ a b : FV binary64, sqrt (fin 1000 false) = .ok a ∧ sqrt (fin 1001 false) = .ok b ∧ a < b :=
  (C94_sqrt 1000 1001 false false).2.1 (by decide +kernel) (by decide +kernel) (by norm_num) (by norm_num)

/-- C94_atan for concrete arguments in `double` -/
example : atan (fin 1 false : FV binary64) < atan (fin (1 + 1 / 2 ^ 40) false : FV binary64) := by
  refine C94_atan rfl 1 (1 + 1 / 2 ^ 40) false false (by decide +kernel) (by decide +kernel) (by decide +kernel) ?_ (by norm_num)
  have h := Real.arctan_lt_pi_div_two ((1 + 1 / 2 ^ 40 : ℚ) : ℝ)
  have h0 : 0 ≤ Real.arctan ((1 + 1 / 2 ^ 40 : ℚ) : ℝ) := Real.arctan_nonneg.2 (by norm_num)
  have hpi := Real.pi_lt_four
  generalize Real.arctan ((1 + 1 / 2 ^ 40 : ℚ) : ℝ) = t at *
  norm_num [Fmt.prec, FTy.prec]
  linarith

end Gcem.Props
