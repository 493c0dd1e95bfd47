import Verif.Props.LogAcc
import Verif.Props.AsinAcc
import Verif.Props.Hyper
import Mathlib.Analysis.SpecialFunctions.Arsinh
import Mathlib.Analysis.SpecialFunctions.Arcosh
import Mathlib.Analysis.SpecialFunctions.Artanh

/-!
# C69: accuracy of asinh, acosh and atanh
-/

namespace Gcem
open FV Props
variable {f : Fmt}

theorem log_pert {R Y η : ℝ} (hY : 0 < Y) (h : |R - Y| ≤ η * Y) (hη : η ≤ 1 / 1000) :
    0 < R ∧ |Real.log R - Real.log Y| ≤ 1002 / 1000 * η := by
  obtain ⟨h1, h2⟩ := abs_le.1 h
  have hη0 : 0 ≤ η := by
    by_contra hc
    push Not at hc
    have := mul_neg_of_neg_of_pos hc hY
    linarith
  have hR : 0 < R := by
    have := mul_le_mul_of_nonneg_right hη hY.le
    linarith
  refine ⟨hR, ?_⟩
  rw [abs_le]
  constructor
  · have := Real.log_le_sub_one_of_pos (div_pos hY hR)
    rw [Real.log_div hY.ne' hR.ne'] at this
    have h3 : Y / R - 1 ≤ 1002 / 1000 * η := by
      rw [div_sub_one hR.ne', div_le_iff₀ hR]
      have : η * (999 / 1000 * Y) ≤ η * R := mul_le_mul_of_nonneg_left (by
        have := mul_le_mul_of_nonneg_right hη hY.le
        linarith) hη0
      have h0 := mul_nonneg hη0 hY.le
      nlinarith
    linarith
  · have := Real.log_le_sub_one_of_pos (div_pos hR hY)
    rw [Real.log_div hR.ne' hY.ne'] at this
    have h3 : R / Y - 1 ≤ η := by
      rw [div_sub_one hY.ne', div_le_iff₀ hY]
      linarith
    linarith

/-- `log` of a perturbed argument at least `1/2` -/
theorem log_at (hf : f.exact = false) {R : ℚ} {w : Bool} (hv : Valid (fin R w : FV f)) (h2 : 1 / 2 ≤ R) {Y η : ℝ} (hY : 0 < Y)
    (h : |(R:ℝ) - Y| ≤ η * Y) (hη : η ≤ 1 / 1000) :
    ∃ r w', log (fin R w : FV f) = .ok (fin r w') ∧ |(r:ℝ) - Real.log Y| ≤ (15 + 5 * |Real.log Y|) * uro f + 101 / 100 * η := by
  obtain ⟨hR, hp⟩ := log_pert hY h hη
  have u0 := uro_pos_real f
  have u1 := uro_le f
  have hp' := abs_le.1 hp
  have hl : |Real.log R| ≤ |Real.log Y| + 1002 / 1000 * η := by
    have := abs_sub_abs_le_abs_sub (Real.log R) (Real.log Y)
    linarith
  have hη0 : 0 ≤ η := by
    have := (abs_nonneg _).trans hp
    linarith
  have key : ∃ r w', log (fin R w : FV f) = .ok (fin r w') ∧ |(r:ℝ) - Real.log R| ≤ (15 + 5 * |Real.log R|) * uro f := by
    rcases le_or_gt 1 R with c | c
    · obtain ⟨r, w', e1, e2⟩ := C37_ge_one hf R w hv c
      refine ⟨r, w', e1, ?_⟩
      rw [abs_of_nonneg (Real.log_nonneg (by exact_mod_cast c)), uro_eq]
      exact e2
    · obtain ⟨r, w', e1, e2⟩ := C37_direct_range hf R w hv h2 (by linarith)
      refine ⟨r, w', e1, e2.trans ?_⟩
      rw [← uro_eq]
      have := abs_nonneg (Real.log (R:ℝ))
      nlinarith
  obtain ⟨r, w', e1, e2⟩ := key
  refine ⟨r, w', e1, ?_⟩
  have e3 : (r:ℝ) - Real.log Y = (r - Real.log R) + (Real.log R - Real.log Y) := by ring
  rw [e3]
  refine (abs_add_le _ _).trans ((add_le_add e2 hp).trans ?_)
  generalize ((uro f : ℚ) : ℝ) = u at *
  have h3 := mul_le_mul_of_nonneg_right hl u0.le
  have h4 : η * u ≤ η * (1 / 10000) := mul_le_mul_of_nonneg_left (u1.trans (by norm_num)) hη0
  nlinarith

/-- `log` of a perturbed argument below `1/2` that is not close to a power of ten -/
theorem log_at_small (hf : f.exact = false) {R : ℚ} {w : Bool} (hv : Valid (fin R w : FV f)) (h2 : R < 1 / 2)
    (hmn : minNormal f ≤ R) {Y η : ℝ} (hY : 0 < Y)
    (h : |(R:ℝ) - Y| ≤ η * Y) (hη : η ≤ 1 / 1000000)
    (ht : ∀ e : ℤ, 2 / 10000 * (10:ℝ) ^ e < |Y - 10 ^ e|) :
    ∃ r w', log (fin R w : FV f) = .ok (fin r w') ∧ |(r:ℝ) - Real.log Y| ≤ (40 + 5 * |Real.log Y|) * uro f + 101 / 100 * η := by
  obtain ⟨hR, hp⟩ := log_pert hY h (hη.trans (by norm_num))
  have u0 := uro_pos_real f
  have u1 := uro_le f
  have hl : |Real.log R| ≤ |Real.log Y| + 1002 / 1000 * η := by
    have := abs_sub_abs_le_abs_sub (Real.log R) (Real.log Y)
    linarith
  have hη0 : 0 ≤ η := by
    have := (abs_nonneg _).trans hp
    linarith
  obtain ⟨r, w', j, e1, e2, -, hj⟩ := C37_small hf R w hv hmn h2
  have hj0 : j = 0 := by
    apply hj
    intro e
    have h5 := ht e
    have hp10 : (0:ℝ) < 10 ^ e := by positivity
    by_contra hc
    push Not at hc
    have hc' := (Rat.cast_le (K := ℝ)).2 hc
    push_cast at hc'
    have h6 : |Y - (10:ℝ) ^ e| ≤ |(R:ℝ) - Y| + |(R:ℝ) - 10 ^ e| := by
      rw [abs_sub_comm (R:ℝ) Y]
      exact abs_sub_le _ _ _
    have h7 := mul_le_mul_of_nonneg_right hη hY.le
    have h8 := (abs_le.1 h)
    have h9 := (abs_le.1 hc')
    generalize (10:ℝ) ^ e = T at *
    have : Y ≤ 2 * T := by linarith
    linarith
  subst hj0
  refine ⟨r, w', e1, ?_⟩
  rw [← uro_eq] at e2
  simp only [Int.cast_zero, zero_mul, add_zero] at e2
  have e3 : (r:ℝ) - Real.log Y = (r - Real.log R) + (Real.log R - Real.log Y) := by ring
  rw [e3]
  refine (abs_add_le _ _).trans ((add_le_add e2 hp).trans ?_)
  generalize ((uro f : ℚ) : ℝ) = u at *
  have h3 := mul_le_mul_of_nonneg_right hl u0.le
  have h4 : η * u ≤ η * (1 / 10000) := mul_le_mul_of_nonneg_left (u1.trans (by norm_num)) hη0
  nlinarith

theorem uro_le_one_sub_abs {q : ℚ} (hf : f.exact = false) (hr : Rep f q) (h1 : |q| < 1) : uro f ≤ 1 - |q| := by
  have hr' : Rep f |q| := by
    rcases abs_choice q with e | e <;> rw [e]
    · exact hr
    · exact hr.neg
  rcases le_or_gt (1 / 2) |q| with h | h
  · exact uro_lt_of_lt_one hf hr' h1 h
  · have := uro_lt_half f
    linarith

/-- the argument of the logarithm in `atanh` -/
theorem atanh_arg (hf : f.exact = false) {q : ℚ} {z : Bool} (hx : Valid (fin q z : FV f)) (h1 : |q| < 1) :
    ∃ R w, ((i 1 + fin q z) / (i 1 - fin q z) : FV f) = fin R w ∧ Valid (fin R w : FV f) ∧
      |(R:ℝ) - (1 + q) / (1 - q)| ≤ 301 / 100 * uro f * ((1 + q) / (1 - q)) ∧ (0 ≤ q → 1 ≤ R) ∧
      1 / 2 ^ 67 ≤ R := by
  have rone : Rep f 1 := by have := rep_pow2_nat (f := f) (n := 0); simpa using this
  have hu := uro_le_one_sub_abs hf hx.rep h1
  have hu63 : (1 / 2 ^ 64 : ℚ) ≤ uro f := by
    unfold uro
    obtain ⟨ty, ex⟩ := f
    cases (show ex = false from hf)
    cases ty <;> decide +kernel
  have hu7 := uro_le7 f
  have hup := uro_pos f
  obtain ⟨g1, g2⟩ := abs_lt.1 h1
  have g3 := neg_abs_le q
  have g4 := le_abs_self q
  have i1 : Is (i 1 : FV f) 1 := by simpa using is_i (f := f) (n := 1) (by norm_num)
  have a1 := i1.add (is_fin (f := f) q z) (nov (by rw [abs_le]; constructor <;> norm_num <;> linarith))
  have a2 := i1.sub (is_fin (f := f) q z) (nov (by rw [abs_le]; constructor <;> norm_num <;> linarith))
  have e1 := rnd_add_rel rone hx.rep
  have e2 := rnd_sub_rel rone hx.rep
  have p1 : 0 < 1 + q := by linarith
  have p2 : 0 < 1 - q := by linarith
  have hw : wro f = 1001 / 1000 * uro f := rfl
  have r1 : Rl (i 1 + fin q z : FV f) (1 + q) 1 := ⟨p1, by norm_num, _, a1, by
    rw [abs_of_pos p1] at e1; rw [hw]; nlinarith [mul_pos hup p1]⟩
  have r2 : Rl (i 1 - fin q z : FV f) (1 - q) 1 := ⟨p2, by norm_num, _, a2, by
    rw [abs_of_pos p2] at e2; rw [hw]; nlinarith [mul_pos hup p2]⟩
  have b1 : (1 / 2 ^ 66 : ℚ) ≤ (1 + q) / (1 - q) := by
    rw [le_div_iff₀ p2]
    norm_num at hu63 ⊢
    linarith
  have b2 : (1 + q) / (1 - q) ≤ 2 ^ 66 := by
    rw [div_le_iff₀ p2]
    norm_num at hu63 ⊢
    linarith
  obtain ⟨-, -, R, hR, he⟩ := r1.div r2 (c'' := 3001 / 1000) (le_trans (by norm_num) b1) (b2.trans (by norm_num)) (by norm_num) (by norm_num)
  obtain ⟨w, hw'⟩ := hR
  have hq0 : 0 ≤ q → 1 ≤ R := by
    intro hq
    have c1 : 1 ≤ rnd f (1 + q) := le_rnd_of_rep rone (by linarith)
    have c2 : rnd f (1 - q) ≤ 1 := rnd_le_of_rep rone (by linarith)
    have c3 : 0 < rnd f (1 - q) := by
      rw [abs_of_pos p2] at e2
      have := (abs_le.1 e2).1
      have : uro f * (1 - q) ≤ 1 / 2 * (1 - q) := mul_le_mul_of_nonneg_right (by norm_num at hu7 ⊢; linarith) p2.le
      linarith
    have hd := a1.div a2 c3.ne' (nov (by
      have h3 : rnd f (1 + q) ≤ 2 := rnd_le_of_rep (by have := rep_pow2_nat (f := f) (n := 1); simpa using this) (by linarith)
      have h4 : 1 / 2 ^ 65 ≤ rnd f (1 - q) := le_rnd_of_rep (rep_inv_pow2 (by norm_num)) (by norm_num at hu63 ⊢; linarith)
      rw [abs_of_pos (div_pos (by linarith) c3), div_le_iff₀ c3]
      norm_num at h4 ⊢; linarith))
    obtain ⟨w2, hw2⟩ := hd
    rw [hw2] at hw'
    injection hw' with h3 h4
    rw [← h3]
    refine le_rnd_of_rep rone ?_
    rw [le_div_iff₀ c3]; linarith
  refine ⟨R, w, hw', by rw [← hw']; exact valid_div _ _, ?_, hq0, ?_⟩
  · have he' := (Rat.cast_le (K := ℝ)).2 he
    rw [hw] at he'
    push_cast at he'
    have u0 := uro_pos_real f
    have y0 : (0:ℝ) < (1 + q) / (1 - q) := by
      have := (Rat.cast_lt (K := ℝ)).2 (div_pos p1 p2)
      push_cast at this; exact this
    generalize ((1 + q) / (1 - q) : ℝ) = Y at *
    have := mul_pos u0 y0
    nlinarith
  · have := (abs_le.1 he).1
    have y0 := div_pos p1 p2
    rw [hw] at this
    generalize ((1 + q) / (1 - q) : ℚ) = Y at *
    have : uro f * Y ≤ 1 / 10 ^ 7 * Y := mul_le_mul_of_nonneg_right hu7 y0.le
    norm_num at this b1 ⊢
    linarith

theorem log_abs_le {Y : ℝ} (h1 : 1 / 2 ^ 66 ≤ Y) (h2 : Y ≤ 2 ^ 66) : |Real.log Y| ≤ 2 ^ 66 := by
  have h0 : 0 < Y := lt_of_lt_of_le (by norm_num) h1
  rw [abs_le]
  constructor
  · have := Real.log_le_self (inv_pos.2 h0).le
    rw [Real.log_inv] at this
    have h3 : Y⁻¹ ≤ 2 ^ 66 := by
      rw [inv_le_comm₀ h0 (by norm_num)]
      exact le_trans (by norm_num) h1
    linarith
  · exact (Real.log_le_self h0.le).trans h2

theorem atanh_eq (hf : f.exact = false) {q : ℚ} {z : Bool} (hx : Valid (fin q z : FV f)) (h0 : minNormal f ≤ |q|) (h1 : |q| < 1) :
    atanh (fin q z : FV f) = atanh_compute (fin q z) := by
  have i1 : Is (i 1 : FV f) 1 := by simpa using is_i (f := f) (n := 1) (by norm_num)
  have hm := minNormal_pos f
  unfold atanh atanh_check
  rw [if_neg (by simp), if_neg (by rw [i1.lt_iff (is_fin q z).fabs]; linarith), if_neg, if_neg (by rw [limMin_gt_fabs]; linarith)]
  have hl : Is (limMin : FV f) (minNormal f) := ⟨false, rfl⟩
  have := i1.sub (is_fin (f := f) q z).fabs (nov (by rw [abs_of_pos (by linarith)]; norm_num; linarith))
  rw [gt_iff, this.lt_iff hl, not_lt]
  refine le_rnd_of_rep (rep_minNormal f) ?_
  have := uro_le_one_sub_abs hf hx.rep h1
  have := minNormal_lt_uro f
  linarith

/-- the halving at the end of `atanh` -/
theorem half_log {r : ℚ} {w : Bool} {A C : ℝ} (hC : 0 ≤ C) (hC' : C ≤ 1000) (hA : |A| ≤ 2 ^ 65)
    (h : |(r:ℝ) - 2 * A| ≤ (2 * C + 10 * |A|) * uro f) :
    ∃ s w', (fin r w / i 2 : FV f) = fin s w' ∧ |(s:ℝ) - A| ≤ (C + 1 / 10 + 7 * |A|) * uro f := by
  have i2 : Is (i 2 : FV f) 2 := by simpa using is_i (f := f) (n := 2) (by norm_num)
  have u0 := uro_pos_real f
  have u1 := uro_le f
  have a0 := abs_nonneg A
  have hr : |(r:ℝ)| ≤ 2 * |A| + (2 * C + 10 * |A|) * uro f := by
    have := abs_sub_abs_le_abs_sub (r:ℝ) (2 * A)
    rw [abs_mul, abs_two] at this
    linarith
  have hr2 : |r| ≤ 2 ^ 100 := by
    have : |(r:ℝ)| ≤ 2 ^ 100 := by
      have : (2 * C + 10 * |A|) * uro f ≤ (2 * C + 10 * |A|) * 1 := mul_le_mul_of_nonneg_left (u1.trans (by norm_num)) (by positivity)
      norm_num at hA ⊢
      linarith
    exact_mod_cast this
  obtain ⟨w', e⟩ := (is_fin (f := f) r w).div i2 two_ne_zero (nov (by
    rw [abs_div, abs_two, div_le_iff₀ (by norm_num)]
    norm_num at hr2 ⊢; linarith))
  refine ⟨_, w', e, ?_⟩
  have he := (Rat.cast_le (K := ℝ)).2 ((rnd_err_all (f := f) (r / 2)).trans (add_le_add_right (half_emin_uro f) _))
  push_cast at he
  rw [abs_div, abs_two] at he
  generalize ((uro f : ℚ) : ℝ) = u at *
  generalize ((rnd f (r / 2) : ℚ) : ℝ) = s at *
  have e1 : s - A = (s - r / 2) + (r - 2 * A) / 2 := by ring
  rw [e1]
  refine (abs_add_le _ _).trans ?_
  rw [abs_div, abs_two]
  have h2 : u * |(r:ℝ)| ≤ u * (2 * |A| + (2 * C + 10 * |A|) * u) := mul_le_mul_of_nonneg_left hr u0.le
  have h3 : (2 * C + 10 * |A|) * u * u ≤ (2 * C + 10 * |A|) * u * (1 / 100000) :=
    mul_le_mul_of_nonneg_left (u1.trans (by norm_num)) (by positivity)
  have h4 : C * u ≤ 1000 * u := mul_le_mul_of_nonneg_right hC' u0.le
  have h5 := mul_nonneg a0 u0.le
  nlinarith

theorem artanh_log {q : ℚ} (h1 : |q| < 1) : Real.log ((1 + (q:ℝ)) / (1 - q)) = 2 * Real.artanh q := by
  obtain ⟨g1, g2⟩ := abs_lt.1 h1
  have g1' : (-1:ℝ) < q := by exact_mod_cast g1
  have g2' : (q:ℝ) < 1 := by exact_mod_cast g2
  rw [Real.artanh_eq_half_log ⟨g1'.le, g2'.le⟩]
  ring

theorem ratio_bounds (hf : f.exact = false) {q : ℚ} (hx : Rep f q) (h1 : |q| < 1) :
    (1 / 2 ^ 66 : ℝ) ≤ (1 + q) / (1 - q) ∧ (1 + (q:ℝ)) / (1 - q) ≤ 2 ^ 66 := by
  have hu := uro_le_one_sub_abs hf hx h1
  have hu63 : (1 / 2 ^ 64 : ℚ) ≤ uro f := by
    unfold uro
    obtain ⟨ty, ex⟩ := f
    cases (show ex = false from hf)
    cases ty <;> decide +kernel
  obtain ⟨g1, g2⟩ := abs_lt.1 h1
  have g3 := neg_abs_le q
  have g4 := le_abs_self q
  have p2 : 0 < 1 - q := by linarith
  have b1 : (1 / 2 ^ 66 : ℚ) ≤ (1 + q) / (1 - q) := by
    rw [le_div_iff₀ p2]
    norm_num at hu63 ⊢
    linarith
  have b2 : (1 + q) / (1 - q) ≤ 2 ^ 66 := by
    rw [div_le_iff₀ p2]
    norm_num at hu63 ⊢
    linarith
  have c1 := (Rat.cast_le (K := ℝ)).2 b1
  have c2 := (Rat.cast_le (K := ℝ)).2 b2
  push_cast at c1 c2
  exact ⟨c1, c2⟩

/-- the factor of the sqrt error bound used in `asinh`, `acosh` -/
def sqrtK (f : Fmt) (q : ℚ) : ℝ := if q ≤ 4 then 3 else 1.52 * sqrtLev f.ty + 5

theorem sqrt_K (hf : f.exact = false) {q : ℚ} {z : Bool} (hx : Valid (fin q z : FV f)) (hq : 1 / 2 ^ 70 ≤ q) :
    ∃ r : ℚ, sqrt (fin q z : FV f) = .ok (fin r false) ∧ |(r:ℝ) - √(q:ℝ)| ≤ sqrtK f q * uro f * √(q:ℝ) := by
  have hq0 : 0 < q := lt_of_lt_of_le (by norm_num) hq
  have hs : 0 < √(q:ℝ) := Real.sqrt_pos.2 (by exact_mod_cast hq0)
  unfold sqrtK
  split_ifs with h
  · obtain ⟨r, e, he⟩ := C26_upto4 hf q z hx (by have := minNormal_le' f; norm_num at this hq ⊢; linarith)
      (le_trans (by norm_num) hq) h
    refine ⟨r, e, he.trans_eq ?_⟩
    rw [uro_eq]; ring
  · obtain ⟨r, e, he⟩ := sqrt_acc hf hx (by
      refine le_trans ?_ hq
      rcases f with ⟨⟨⟩, ⟨⟩⟩ <;> decide +kernel)
    exact ⟨r, e, abs_of_ratio hs he⟩

theorem sqrtK_bounds (f : Fmt) (q : ℚ) : 3 ≤ sqrtK f q ∧ sqrtK f q * uro f ≤ 1 / 10 ^ 5 := by
  unfold sqrtK
  have u0 := uro_pos_real f
  have u1 := uro_le f
  split_ifs with h
  · exact ⟨le_rfl, by norm_num at u1 ⊢; linarith⟩
  · constructor
    · have : (0:ℝ) ≤ sqrtLev f.ty := Nat.cast_nonneg _
      linarith
    · rw [uro_eq]
      obtain ⟨ty, ex⟩ := f
      cases ty <;> norm_num [sqrtLev, Fmt.prec, FTy.prec]

theorem sqrt_pert {a b : ℝ} (ha : 0 ≤ a) (hb : 0 < b) : |√a - √b| ≤ |a - b| / √b := by
  have hs := Real.sqrt_pos.2 hb
  have hs' := Real.sqrt_nonneg a
  rw [le_div_iff₀ hs]
  have e : a - b = (√a - √b) * (√a + √b) := by
    have h1 := Real.mul_self_sqrt ha
    have h2 := Real.mul_self_sqrt hb.le
    nlinarith
  rw [e, abs_mul, abs_of_pos (show 0 < √a + √b by linarith)]
  exact mul_le_mul_of_nonneg_left (by linarith) (abs_nonneg _)

theorem sq_le_emax {q : ℚ} (h : |q| ≤ pow2 (f.emax / 2 - 1)) : q * q ≤ 1 / 4 * pow2 f.emax := by
  have h0 := abs_nonneg q
  rw [← abs_mul_abs_self]
  refine (mul_le_mul h h h0 (pow2_pos _).le).trans ?_
  rcases f with ⟨⟨⟩, ⟨⟩⟩ <;> decide +kernel

theorem lim_le_emax : 4 * pow2 (f.emax / 2 - 1) ≤ 3 / 4 * pow2 f.emax := by
  rcases f with ⟨⟨⟩, ⟨⟩⟩ <;> decide +kernel

theorem one_le_emax (f : Fmt) : 1000 ≤ pow2 f.emax := by
  rcases f with ⟨⟨⟩, ⟨⟩⟩ <;> decide +kernel

/-- the leg `√(x²+1)` of `asinh` -/
theorem asinh_leg (hf : f.exact = false) {q : ℚ} {z : Bool} (h : |q| ≤ pow2 (f.emax / 2 - 1)) :
    ∃ S s, sqrt (fin q z * fin q z + i 1 : FV f) = .ok (fin s false) ∧ (q * q ≤ 5 / 2 → S ≤ 4) ∧
      |(s:ℝ) - √(1 + (q:ℝ) ^ 2)| ≤ (sqrtK f S + 202 / 100) * uro f * √(1 + (q:ℝ) ^ 2) := by
  have i1 : Is (i 1 : FV f) 1 := by simpa using is_i (f := f) (n := 1) (by norm_num)
  have rone : Rep f 1 := by have := rep_pow2_nat (f := f) (n := 0); simpa using this
  have hqq := sq_le_emax h
  have hE := one_le_emax f
  have q0 : 0 ≤ q * q := mul_self_nonneg q
  have hu7 := uro_le7 f
  have hup := uro_pos f
  have a1 := (is_fin (f := f) q z).mul (is_fin q z) (nov_big (by rw [abs_of_nonneg q0]; linarith))
  have e1 := (rnd_err_all (f := f) (q * q)).trans (add_le_add_right (half_emin_uro f) _)
  have m0 : 0 ≤ rnd f (q * q) := rnd_nonneg q0
  have rm := rep_rnd f (q * q)
  rw [abs_of_nonneg q0] at e1
  have e1' := abs_le.1 e1
  generalize rnd f (q * q) = m at *
  have k1 : uro f * (q * q) ≤ 1 / 10 ^ 7 * (q * q) := mul_le_mul_of_nonneg_right hu7 q0
  have a2 := a1.add i1 (nov_big (by rw [abs_of_nonneg (by linarith)]; norm_num at k1 hu7; linarith))
  have e2 := rnd_add_rel rm rone
  rw [abs_of_pos (show 0 < m + 1 by linarith)] at e2
  have S1 : 1 ≤ rnd f (m + 1) := le_rnd_of_rep rone (by linarith)
  obtain ⟨w, hw⟩ := a2
  have hv : Valid (fin (rnd f (m + 1)) w : FV f) := by rw [← hw]; exact valid_add _ _
  have e2' := abs_le.1 e2
  generalize rnd f (m + 1) = S at *
  obtain ⟨s, es, hs⟩ := sqrt_K hf hv (by norm_num; linarith)
  refine ⟨S, s, by rw [hw]; exact es, ?_, ?_⟩
  · intro hq
    have k2 : uro f * (m + 1) ≤ 1 / 10 ^ 7 * (m + 1) := mul_le_mul_of_nonneg_right hu7 (by linarith)
    norm_num at k1 k2 hu7
    linarith
  · have d : |S - (1 + q ^ 2)| ≤ 201 / 100 * uro f * (1 + q ^ 2) := by
      have e3 : S - (1 + q ^ 2) = (S - (m + 1)) + (m - q * q) := by ring
      rw [e3]
      refine (abs_add_le _ _).trans ((add_le_add e2 e1).trans ?_)
      have k3 : uro f * m ≤ uro f * (q * q + 1 / 10 ^ 7 * (q * q) + uro f / 1000) := mul_le_mul_of_nonneg_left (by linarith) hup.le
      have k4 : uro f * uro f ≤ uro f * (1 / 10 ^ 7) := mul_le_mul_of_nonneg_left hu7 hup.le
      have k5 := mul_nonneg hup.le q0
      norm_num at k3 k4
      nlinarith
    have d' := (Rat.cast_le (K := ℝ)).2 d
    push_cast at d'
    have hT : (0:ℝ) < 1 + (q:ℝ) ^ 2 := by positivity
    have hS0 : (0:ℝ) ≤ S := by exact_mod_cast (show 0 ≤ S by linarith)
    have p := sqrt_pert hS0 hT
    have hsT := Real.sqrt_pos.2 hT
    have p2 : |√(S:ℝ) - √(1 + (q:ℝ) ^ 2)| ≤ 201 / 100 * uro f * √(1 + (q:ℝ) ^ 2) := by
      refine p.trans ?_
      rw [div_le_iff₀ hsT, mul_assoc, Real.mul_self_sqrt hT.le]
      exact d'
    obtain ⟨-, hK⟩ := sqrtK_bounds f S
    obtain ⟨hK3, -⟩ := sqrtK_bounds f S
    have u0 := uro_pos_real f
    generalize √(1 + (q:ℝ) ^ 2) = T at *
    generalize √(S:ℝ) = S' at *
    generalize sqrtK f S = K at *
    generalize ((uro f : ℚ) : ℝ) = u at *
    have e4 : (s:ℝ) - T = (s - S') + (S' - T) := by ring
    rw [e4]
    refine (abs_add_le _ _).trans ((add_le_add hs p2).trans ?_)
    have h3 := (abs_le.1 p2).2
    have h4 : K * u * S' ≤ K * u * (T + 201 / 100 * u * T) := mul_le_mul_of_nonneg_left (by linarith) (by positivity)
    have h5 : (K * u) * (u * T) ≤ 1 / 10 ^ 5 * (u * T) := mul_le_mul_of_nonneg_right hK (by positivity)
    norm_num at h5
    nlinarith

namespace Props

/-- C69: for every normal `-1/4 ≤ x < 1` the error of `atanh` is at most `(10 + 7 |artanh x|) u`. -/
theorem C69_atanh (hf : f.exact = false) (q : ℚ) (z : Bool) (hx : Valid (fin q z : FV f)) (h0 : minNormal f ≤ |q|)
    (h1 : -1 / 4 ≤ q) (h2 : q < 1) :
    ∃ r w, atanh (fin q z : FV f) = .ok (fin r w) ∧
      |(r:ℝ) - Real.artanh q| ≤ (10 + 7 * |Real.artanh q|) * (1 / 2 ^ f.prec) := by
  have h3 : |q| < 1 := by rw [abs_lt]; constructor <;> linarith
  rw [atanh_eq hf hx h0 h3, ← uro_eq]
  obtain ⟨R, w, e1, hv, he, hge, -⟩ := atanh_arg hf hx h3
  obtain ⟨y1, y2⟩ := ratio_bounds hf hx.rep h3
  have y0 : (0:ℝ) < (1 + q) / (1 - q) := lt_of_lt_of_le (by norm_num) y1
  have u0 := uro_pos_real f
  have u1 := uro_le f
  have hR : 1 / 2 ≤ R := by
    rcases le_or_gt 0 q with c | c
    · have := hge c; linarith
    · have b : (3 / 5 : ℝ) ≤ (1 + q) / (1 - q) := by
        have h1' := (Rat.cast_le (K := ℝ)).2 h1
        have h2' := (Rat.cast_lt (K := ℝ)).2 h2
        push_cast at h1' h2'
        rw [le_div_iff₀ (by linarith)]; linarith
      have h4 := (abs_le.1 he).1
      have : (1 / 2 : ℝ) ≤ R := by
        have : 301 / 100 * uro f * ((1 + (q:ℝ)) / (1 - q)) ≤ 1 / 10 * ((1 + (q:ℝ)) / (1 - q)) :=
          mul_le_mul_of_nonneg_right (by linarith) y0.le
        linarith
      have h5 : (((1 / 2 : ℚ)) : ℝ) ≤ R := by push_cast; exact this
      exact_mod_cast h5
  obtain ⟨r, w', e2, h4⟩ := log_at hf hv hR y0 he (by linarith)
  have hl := log_abs_le y1 y2
  rw [artanh_log h3] at h4 hl
  rw [abs_mul, abs_two] at hl
  obtain ⟨s, w2, e3, h5⟩ := half_log (f := f) (r := r) (w := w') (A := Real.artanh q) (C := 92 / 10) (by norm_num) (by norm_num)
    (by linarith) (by
      refine h4.trans ?_
      rw [abs_mul, abs_two]
      nlinarith [abs_nonneg (Real.artanh (q:ℝ))])
  refine ⟨s, w2, ?_, h5.trans ?_⟩
  · unfold atanh_compute
    rw [e1, e2]
    simp only [bind, Except.bind]
    rw [e3]
  · exact mul_le_mul_of_nonneg_right (by linarith) u0.le

/-- C69: for `-1 < x < -1/4` the error of `atanh` is at most `(22 + 7 |artanh x|) u` unless `(1+x)/(1-x)` is within a
relative distance of `2e-4` of a power of ten. -/
theorem C69_atanh_neg (hf : f.exact = false) (q : ℚ) (z : Bool) (hx : Valid (fin q z : FV f))
    (h1 : -1 < q) (h2 : q < -1 / 4) (ht : ∀ e : ℤ, 2 / 10000 * (10:ℝ) ^ e < |(1 + (q:ℝ)) / (1 - q) - 10 ^ e|) :
    ∃ r w, atanh (fin q z : FV f) = .ok (fin r w) ∧
      |(r:ℝ) - Real.artanh q| ≤ (22 + 7 * |Real.artanh q|) * (1 / 2 ^ f.prec) := by
  have h3 : |q| < 1 := by rw [abs_lt]; constructor <;> linarith
  have h0 : minNormal f ≤ |q| := by
    have := minNormal_le' f
    rw [abs_of_neg (by linarith)]; norm_num at this; linarith
  rw [atanh_eq hf hx h0 h3, ← uro_eq]
  obtain ⟨R, w, e1, hv, he, -, hlow⟩ := atanh_arg hf hx h3
  obtain ⟨y1, y2⟩ := ratio_bounds hf hx.rep h3
  have y0 : (0:ℝ) < (1 + q) / (1 - q) := lt_of_lt_of_le (by norm_num) y1
  have u0 := uro_pos_real f
  have u1 := uro_le f
  have key : ∃ r w', log (fin R w : FV f) = .ok (fin r w') ∧
      |(r:ℝ) - Real.log ((1 + q) / (1 - q))| ≤ (40 + 5 * |Real.log ((1 + q) / (1 - q))|) * uro f + 101 / 100 * (301 / 100 * uro f) := by
    rcases le_or_gt (1 / 2) R with c | c
    · obtain ⟨r, w', e2, h4⟩ := log_at hf hv c y0 he (by linarith)
      exact ⟨r, w', e2, h4.trans (by linarith)⟩
    · exact log_at_small hf hv c (by have := minNormal_le' f; norm_num at this hlow ⊢; linarith) y0 he (by norm_num at u1 ⊢; linarith) ht
  obtain ⟨r, w', e2, h4⟩ := key
  have hl := log_abs_le y1 y2
  rw [artanh_log h3] at h4 hl
  rw [abs_mul, abs_two] at hl
  obtain ⟨s, w2, e3, h5⟩ := half_log (f := f) (r := r) (w := w') (A := Real.artanh q) (C := 218 / 10) (by norm_num) (by norm_num)
    (by linarith) (by
      refine h4.trans ?_
      rw [abs_mul, abs_two]
      nlinarith [abs_nonneg (Real.artanh (q:ℝ))])
  refine ⟨s, w2, ?_, h5.trans ?_⟩
  · unfold atanh_compute
    rw [e1, e2]
    simp only [bind, Except.bind]
    rw [e3]
  · exact mul_le_mul_of_nonneg_right (by linarith) u0.le

/-- constant of the error bound of `asinh` and `acosh` above `3/2` (resp. `2`) -/
def ahypC : FTy → ℝ
  | .float => 37
  | .double => 91
  | .ldouble => 1007

end Props

theorem sqrtK_type (f : Fmt) (q : ℚ) : 101 / 100 * sqrtK f q + 187 / 10 ≤ ahypC f.ty := by
  unfold sqrtK
  obtain ⟨ty, ex⟩ := f
  cases ty <;> split_ifs <;> norm_num [sqrtLev, ahypC]

theorem asinh_eq {q : ℚ} {z : Bool} (h0 : minNormal f ≤ |q|) : asinh (fin q z : FV f) = (do
    let s ← sqrt (fin q z * fin q z + i 1 : FV f)
    log (fin q z + s)) := by
  unfold asinh asinh_compute
  rw [if_neg (by simp), if_neg (by rw [limMin_gt_fabs]; linarith)]

/-- the sum `x + √(x²+1)` and its logarithm, given that the two do not cancel -/
theorem asinh_core (hf : f.exact = false) {q : ℚ} {z : Bool} (h0 : minNormal f ≤ |q|) (h : |q| ≤ pow2 (f.emax / 2 - 1))
    (hq : -1 / 2 ≤ q) :
    ∃ S r w, asinh (fin q z : FV f) = .ok (fin r w) ∧ (q * q ≤ 5 / 2 → S ≤ 4) ∧
      (0 ≤ q → |(r:ℝ) - Real.arsinh q| ≤ (15 + 5 * |Real.arsinh q|) * uro f + 101 / 100 * ((sqrtK f S + 304 / 100) * uro f)) ∧
      |(r:ℝ) - Real.arsinh q| ≤ (15 + 5 * |Real.arsinh q|) * uro f + 101 / 100 * ((2 * sqrtK f S + 507 / 100) * uro f) := by
  obtain ⟨S, s, es, hS4, hs⟩ := asinh_leg (z := z) hf h
  obtain ⟨hK3, hK⟩ := sqrtK_bounds f S
  have u0 := uro_pos_real f
  have u1 := uro_le f
  have hT : (0:ℝ) < 1 + (q:ℝ) ^ 2 := by positivity
  have hT1 : 1 ≤ √(1 + (q:ℝ) ^ 2) := Real.one_le_sqrt.2 (by nlinarith [sq_nonneg (q:ℝ)])
  have hTT := Real.mul_self_sqrt hT.le
  have hq' : (-1 / 2 : ℝ) ≤ q := by
    have := (Rat.cast_le (K := ℝ)).2 hq
    push_cast at this; exact this
  have hTq : √(1 + (q:ℝ) ^ 2) ≤ 1 + |(q:ℝ)| := by
    rw [Real.sqrt_le_left (by positivity)]
    nlinarith [abs_nonneg (q:ℝ), sq_abs (q:ℝ)]
  have hTy : √(1 + (q:ℝ) ^ 2) ≤ 2 * (q + √(1 + (q:ℝ) ^ 2)) := by
    rcases le_or_gt 0 (q:ℝ) with c | c
    · linarith
    · nlinarith
  have hTy0 : 0 ≤ q → √(1 + (q:ℝ) ^ 2) ≤ (q + √(1 + (q:ℝ) ^ 2)) := by
    intro c
    have : (0:ℝ) ≤ q := by exact_mod_cast c
    linarith
  have har : Real.arsinh q = Real.log (q + √(1 + (q:ℝ) ^ 2)) := rfl
  have hb : |(q:ℝ)| ≤ ((pow2 (f.emax / 2 - 1) : ℚ) : ℝ) := by exact_mod_cast h
  rw [har]
  have hKu : (sqrtK f S + 202 / 100) * uro f ≤ 1 / 10 ^ 4 := by norm_num at hK u1 ⊢; linarith
  have hsq : |(s:ℝ)| ≤ 3 / 2 * (1 + |(q:ℝ)|) := by
    have h1 := abs_le.1 hs
    have h2 : (sqrtK f S + 202 / 100) * uro f * √(1 + (q:ℝ) ^ 2) ≤ 1 / 10 ^ 4 * √(1 + (q:ℝ) ^ 2) :=
      mul_le_mul_of_nonneg_right hKu (by linarith)
    rw [abs_le]
    norm_num at h2
    constructor <;> linarith
  have hov : |q + s| ≤ 3 / 4 * pow2 f.emax := by
    have h1 := lim_le_emax (f := f)
    have h1' := (Rat.cast_le (K := ℝ)).2 h1
    push_cast at h1'
    have hE := (Rat.cast_le (K := ℝ)).2 (one_le_emax f)
    push_cast at hE
    have h2 : |(q:ℝ) + s| ≤ 3 / 4 * ((pow2 f.emax : ℚ) : ℝ) := by
      refine (abs_add_le _ _).trans ?_
      linarith
    have h3 : ((|q + s| : ℚ) : ℝ) ≤ ((3 / 4 * pow2 f.emax : ℚ) : ℝ) := by push_cast; exact h2
    exact_mod_cast h3
  obtain ⟨w, hw⟩ := (is_fin (f := f) q z).add (is_fin s false) (nov_big hov)
  have hv : Valid (fin (rnd f (q + s)) w : FV f) := by rw [← hw]; exact valid_add _ _
  have hs' := abs_le.1 hs
  have hsum : (51 / 100 : ℝ) ≤ q + s := by
    have h2 : (sqrtK f S + 202 / 100) * uro f * √(1 + (q:ℝ) ^ 2) ≤ 1 / 10 ^ 4 * √(1 + (q:ℝ) ^ 2) :=
      mul_le_mul_of_nonneg_right hKu (by linarith)
    have h3 : (55 / 100 : ℝ) ≤ q + √(1 + (q:ℝ) ^ 2) := by
      rcases le_or_gt 0 (q:ℝ) with c | c
      · linarith
      · have : (105 / 100 : ℝ) ≤ √(1 + (q:ℝ) ^ 2) ∨ -45 / 100 ≤ (q:ℝ) := by
          by_contra hcon
          push Not at hcon
          nlinarith [hcon.1, hcon.2]
        rcases this with h | h <;> linarith
    norm_num at h2
    nlinarith
  have hsumq : (51 / 100 : ℚ) ≤ q + s := by
    have : (((51 / 100 : ℚ)) : ℝ) ≤ ((q + s : ℚ) : ℝ) := by push_cast; exact hsum
    exact_mod_cast this
  have e1 := rnd_err_rel (f := f) (q := q + s) (by
    rw [abs_of_pos (by linarith)]
    have := minNormal_le' f
    norm_num at this; linarith)
  rw [abs_of_pos (show 0 < q + s by linarith)] at e1
  have e1' := (Rat.cast_le (K := ℝ)).2 e1
  push_cast at e1'
  have hRge : 1 / 2 ≤ rnd f (q + s) := by
    have := le_rnd_of_rep (f := f) (rep_inv_pow2 (k := 1) (by norm_num)) (show 1 / 2 ^ 1 ≤ q + s by norm_num; linarith)
    norm_num at this ⊢; exact this
  have hy0 : 0 < (q:ℝ) + √(1 + (q:ℝ) ^ 2) := by nlinarith
  have hyp : ∀ c : ℝ, c ≤ 2 → 1 ≤ c → √(1 + (q:ℝ) ^ 2) ≤ c * (q + √(1 + (q:ℝ) ^ 2)) →
      |((rnd f (q + s) : ℚ) : ℝ) - (q + √(1 + (q:ℝ) ^ 2))| ≤
        (c * (sqrtK f S + 203 / 100) + 101 / 100) * uro f * (q + √(1 + (q:ℝ) ^ 2)) := by
    intro c hc hc1 hcT
    generalize √(1 + (q:ℝ) ^ 2) = T at *
    generalize sqrtK f S = K at *
    generalize ((uro f : ℚ) : ℝ) = u at *
    generalize ((rnd f (q + s) : ℚ) : ℝ) = R at *
    have e2 : R - (q + T) = (R - (q + s)) + (s - T) := by ring
    rw [e2]
    refine (abs_add_le _ _).trans ((add_le_add e1' hs).trans ?_)
    have k1 : (K + 202 / 100) * u * T ≤ (K + 202 / 100) * u * (c * (q + T)) := mul_le_mul_of_nonneg_left hcT (by positivity)
    have k2 : u * ((q:ℝ) + s) ≤ u * (q + T + (K + 202 / 100) * u * (c * (q + T))) := mul_le_mul_of_nonneg_left (by linarith) u0.le
    have k3 : (K + 202 / 100) * u * (u * (c * (q + T))) ≤ 1 / 10 ^ 4 * (u * (c * (q + T))) :=
      mul_le_mul_of_nonneg_right hKu (by positivity)
    have k4 : 0 ≤ u * (q + T) := by positivity
    have k5 : 0 ≤ u * (c * (q + T)) := by positivity
    have k6 : u * (c * (q + T)) = c * (u * (q + T)) := by ring
    norm_num at k3
    calc u * ((q:ℝ) + s) + (K + 202 / 100) * u * T
        ≤ u * (q + T + (K + 202 / 100) * u * (c * (q + T))) + (K + 202 / 100) * u * (c * (q + T)) := add_le_add k2 k1
      _ = u * (q + T) + (K + 202 / 100) * u * (u * (c * (q + T))) + (K + 202 / 100) * (u * (c * (q + T))) := by ring
      _ ≤ u * (q + T) + 1 / 10000 * (u * (c * (q + T))) + (K + 202 / 100) * (u * (c * (q + T))) := by linarith
      _ ≤ (c * (K + 203 / 100) + 101 / 100) * u * (q + T) := by
        rw [k6]
        have : (c * (K + 203 / 100) + 101 / 100) * u * (q + T) = (c * (K + 203 / 100) + 101 / 100) * (u * (q + T)) := by ring
        rw [this]
        generalize u * ((q:ℝ) + T) = W at *
        nlinarith
  have hη : ∀ c : ℝ, c ≤ 2 → 1 ≤ c → (c * (sqrtK f S + 203 / 100) + 101 / 100) * uro f ≤ 1 / 1000 := by
    intro c hc hc1
    have : (c * (sqrtK f S + 203 / 100)) * uro f ≤ (2 * (sqrtK f S + 203 / 100)) * uro f :=
      mul_le_mul_of_nonneg_right (mul_le_mul_of_nonneg_right hc (by linarith)) u0.le
    norm_num at hK u1 ⊢
    nlinarith
  have main : ∀ c : ℝ, c ≤ 2 → 1 ≤ c → √(1 + (q:ℝ) ^ 2) ≤ c * (q + √(1 + (q:ℝ) ^ 2)) → _ :=
    fun c a b d => log_at hf hv hRge hy0 (hyp c a b d) (hη c a b)
  obtain ⟨r, w', el, h2⟩ := main 2 le_rfl (by norm_num) hTy
  refine ⟨S, r, w', ?_, hS4, ?_, ?_⟩
  · rw [asinh_eq h0, es]
    simp only [bind, Except.bind]
    rw [hw, el]
  · intro hq0
    obtain ⟨r', w2, el', h3⟩ := main 1 (by norm_num) le_rfl (by rw [one_mul]; exact hTy0 hq0)
    rw [el] at el'
    injection el' with el'
    injection el' with h4 h5
    subst h4
    refine h3.trans_eq ?_
    ring
  · refine h2.trans ?_
    nlinarith

namespace Props

/-- C69: for every normal `-1/2 ≤ x ≤ 3/2` the error of `asinh` is at most `(27 + 5 |arsinh x|) u`. -/
theorem C69_asinh_mid (hf : f.exact = false) (q : ℚ) (z : Bool) (h0 : minNormal f ≤ |q|)
    (h1 : -1 / 2 ≤ q) (h2 : q ≤ 3 / 2) :
    ∃ r w, asinh (fin q z : FV f) = .ok (fin r w) ∧
      |(r:ℝ) - Real.arsinh q| ≤ (27 + 5 * |Real.arsinh q|) * (1 / 2 ^ f.prec) := by
  have u0 := uro_pos_real f
  obtain ⟨S, r, w, e, h4, -, h6⟩ := asinh_core (z := z) hf h0 (by
    have h3 : |q| ≤ 2 := by rw [abs_le]; constructor <;> linarith
    refine h3.trans ?_
    rcases f with ⟨⟨⟩, ⟨⟩⟩ <;> decide +kernel) h1
  refine ⟨r, w, e, h6.trans ?_⟩
  have hS : S ≤ 4 := h4 (by nlinarith)
  rw [← uro_eq, sqrtK, if_pos hS]
  nlinarith [abs_nonneg (Real.arsinh (q:ℝ))]

/-- C69: for every normal `x ≥ 0` up to `2^63`, `2^511`, `2^8191` the error of `asinh` is at most
`(37 + 5 arsinh x) u` in `float`, `(91 + 5 arsinh x) u` in `double`, `(1007 + 5 arsinh x) u` in `long double`. -/
theorem C69_asinh (hf : f.exact = false) (q : ℚ) (z : Bool) (h0 : minNormal f ≤ q) (h1 : q ≤ pow2 (f.emax / 2 - 1)) :
    ∃ r w, asinh (fin q z : FV f) = .ok (fin r w) ∧
      |(r:ℝ) - Real.arsinh q| ≤ (ahypC f.ty + 5 * Real.arsinh q) * (1 / 2 ^ f.prec) := by
  have u0 := uro_pos_real f
  have q0 : 0 < q := lt_of_lt_of_le (minNormal_pos f) h0
  have q0' : (0:ℝ) ≤ q := by exact_mod_cast q0.le
  obtain ⟨S, r, w, e, -, h5, -⟩ := asinh_core (z := z) hf (by rwa [abs_of_pos q0]) (by rwa [abs_of_pos q0]) (by linarith)
  refine ⟨r, w, e, (h5 q0.le).trans ?_⟩
  have := mul_le_mul_of_nonneg_right (sqrtK_type f S) u0.le
  rw [← uro_eq, abs_of_nonneg (Real.arsinh_nonneg_iff.2 q0')]
  nlinarith

end Props

theorem acosh_eq (hf : f.exact = false) {q : ℚ} {z : Bool} (hx : Rep f q) (h1 : 1 < q) (h : q ≤ pow2 (f.emax / 2 - 1)) :
    acosh (fin q z : FV f) = (do
    let s ← sqrt (fin q z * fin q z - i 1 : FV f)
    log (fin q z + s)) ∧ uro f ≤ q - 1 := by
  have i1 : Is (i 1 : FV f) 1 := by simpa using is_i (f := f) (n := 1) (by norm_num)
  have hu : uro f ≤ q - 1 := by
    rcases le_or_gt q 2 with c | c
    · have := sub_one_ge hf hx (by linarith) c (by linarith)
      rwa [abs_of_pos (by linarith)] at this
    · have := uro_lt_half f
      linarith
  refine ⟨?_, hu⟩
  have hm := minNormal_lt_uro f
  have hE := lim_le_emax (f := f)
  unfold acosh acosh_compute
  rw [if_neg (by simp), if_neg (by rw [(is_fin q z).lt_iff i1]; linarith), if_neg]
  obtain ⟨w, e⟩ := (is_fin (f := f) q z).sub i1 (nov_big (by rw [abs_of_pos (by linarith)]; linarith))
  rw [e, limMin_gt_fabs, abs_rnd, not_lt]
  exact le_rnd_of_rep (rep_minNormal f) (by rw [abs_of_pos (by linarith)]; linarith)

theorem acosh_num {u q T t S' s K : ℝ} (u0 : 0 < u) (hq : 1 < q) (hK3 : 3 ≤ K) (hK : K * u ≤ 1 / 10 ^ 5)
    (ht0 : 0 < t) (htt : t * t = T) (p : |S' - t| ≤ (101 / 100 * u * q ^ 2 + u * T) / t) (hs : |s - S'| ≤ K * u * S') :
    |s - t| ≤ 102 / 100 * u * (q ^ 2 / t) + (K + 102 / 100) * u * t := by
  have p' : (101 / 100 * u * q ^ 2 + u * T) / t = 101 / 100 * u * (q ^ 2 / t) + u * t := by
    rw [← htt]; field_simp
  rw [p'] at p
  have hp := abs_le.1 p
  have e : s - t = (s - S') + (S' - t) := by ring
  rw [e]
  refine (abs_add_le _ _).trans ((add_le_add hs p).trans ?_)
  have hX : 0 ≤ u * (q ^ 2 / t) := by positivity
  have hut : 0 ≤ u * t := by positivity
  have k1 : K * u * S' ≤ K * u * (t + (101 / 100 * u * (q ^ 2 / t) + u * t)) := mul_le_mul_of_nonneg_left (by linarith) (by positivity)
  have k2 : K * u * (u * (q ^ 2 / t)) ≤ 1 / 10 ^ 5 * (u * (q ^ 2 / t)) := mul_le_mul_of_nonneg_right hK hX
  have k3 : K * u * (u * t) ≤ 1 / 10 ^ 5 * (u * t) := mul_le_mul_of_nonneg_right hK hut
  norm_num at k2 k3
  generalize q ^ 2 / t = X at *
  linarith

theorem acosh_core (hf : f.exact = false) {q : ℚ} {z : Bool} (hx : Valid (fin q z : FV f)) (h1 : 1 < q)
    (h : q ≤ pow2 (f.emax / 2 - 1)) :
    ∃ S r w, acosh (fin q z : FV f) = .ok (fin r w) ∧ (q ≤ 2 → S ≤ 4) ∧
      |(r:ℝ) - Real.arcosh q| ≤ (15 + 5 * Real.arcosh q) * uro f +
        101 / 100 * ((sqrtK f S / 2 + 16 / 10) * uro f + 103 / 100 * uro f * (q / √((q:ℝ) ^ 2 - 1))) := by
  obtain ⟨eac, hu1⟩ := acosh_eq (z := z) hf hx.rep h1 h
  have i1 : Is (i 1 : FV f) 1 := by simpa using is_i (f := f) (n := 1) (by norm_num)
  have rone : Rep f 1 := by have := rep_pow2_nat (f := f) (n := 0); simpa using this
  have hqq := sq_le_emax (f := f) (q := q) (by rwa [abs_of_pos (by linarith)])
  have hE := one_le_emax f
  have hE2 := lim_le_emax (f := f)
  have q0 : 1 < q * q := by nlinarith
  have hu7 := uro_le7 f
  have hup := uro_pos f
  have hu63 : (1 / 2 ^ 64 : ℚ) ≤ uro f := by
    unfold uro
    obtain ⟨ty, ex⟩ := f
    cases (show ex = false from hf)
    cases ty <;> decide +kernel
  have a1 := (is_fin (f := f) q z).mul (is_fin q z) (nov_big (by rw [abs_of_pos (by linarith)]; linarith))
  have e1 := rnd_err_rel (f := f) (q := q * q) (by
    rw [abs_of_pos (by linarith)]
    have := minNormal_le' f
    norm_num at this; linarith)
  have m0 : q ≤ rnd f (q * q) := le_rnd_of_rep hx.rep (by nlinarith)
  have rm := rep_rnd f (q * q)
  have m4 : q ≤ 2 → rnd f (q * q) ≤ 4 := fun hq =>
    rnd_le_of_rep (by have := rep_pow2_nat (f := f) (n := 2); norm_num at this; exact this) (by nlinarith)
  rw [abs_of_pos (show 0 < q * q by linarith)] at e1
  have e1' := abs_le.1 e1
  generalize rnd f (q * q) = m at *
  have k1 : uro f * (q * q) ≤ 1 / 10 ^ 7 * (q * q) := mul_le_mul_of_nonneg_right hu7 (by linarith)
  have a2 := a1.sub i1 (nov_big (by rw [abs_of_pos (by linarith)]; norm_num at k1 hu7; linarith))
  have e2 := rnd_sub_rel rm rone
  rw [abs_of_pos (show 0 < m - 1 by linarith)] at e2
  have S1 : 1 / 2 ^ 65 ≤ rnd f (m - 1) := le_rnd_of_rep (rep_inv_pow2 (by norm_num)) (by norm_num at hu63 ⊢; linarith)
  have S4 : q ≤ 2 → rnd f (m - 1) ≤ 4 := fun hq =>
    rnd_le_of_rep (by have := rep_pow2_nat (f := f) (n := 2); norm_num at this; exact this) (by have := m4 hq; linarith)
  obtain ⟨w, hw⟩ := a2
  have hv : Valid (fin (rnd f (m - 1)) w : FV f) := by rw [← hw]; exact valid_sub _ _
  generalize rnd f (m - 1) = S at *
  obtain ⟨s, es, hs⟩ := sqrt_K hf hv (by norm_num at S1 ⊢; linarith)
  have d : |S - (q ^ 2 - 1)| ≤ 101 / 100 * uro f * q ^ 2 + uro f * (q ^ 2 - 1) := by
    have e3 : S - (q ^ 2 - 1) = (S - (m - 1)) + (m - q * q) := by ring
    rw [e3]
    refine (abs_add_le _ _).trans ((add_le_add e2 e1).trans ?_)
    have k3 : uro f * m ≤ uro f * (q * q + 1 / 10 ^ 7 * (q * q)) := mul_le_mul_of_nonneg_left (by linarith) hup.le
    have k5 := mul_pos hup (show 0 < q * q by linarith)
    norm_num at k3
    nlinarith
  have d' := (Rat.cast_le (K := ℝ)).2 d
  push_cast at d'
  have hq' : (1:ℝ) < q := by exact_mod_cast h1
  have hT : (0:ℝ) < (q:ℝ) ^ 2 - 1 := by nlinarith
  have hS0 : (0:ℝ) ≤ S := by
    have : 0 ≤ S := le_trans (by norm_num) S1
    exact_mod_cast this
  have p := sqrt_pert hS0 hT
  have ht0 := Real.sqrt_pos.2 hT
  have htt := Real.mul_self_sqrt hT.le
  obtain ⟨hK3, hK⟩ := sqrtK_bounds f S
  have u0 := uro_pos_real f
  have u1 := uro_le f
  have hst := acosh_num u0 hq' hK3 hK ht0 htt (p.trans (div_le_div_of_nonneg_right d' ht0.le)) hs
  have hS2 : (uro f : ℝ) ≤ (q:ℝ) ^ 2 - 1 := by
    have := (Rat.cast_le (K := ℝ)).2 hu1
    push_cast at this
    nlinarith
  have htq : √((q:ℝ) ^ 2 - 1) ≤ q := by
    rw [Real.sqrt_le_left (by linarith)]; linarith
  have har : Real.arcosh q = Real.log (q + √((q:ℝ) ^ 2 - 1)) := rfl
  have hA := Real.arcosh_nonneg hq'.le
  rw [har] at hA ⊢
  have s0 : 0 < s := by
    by_contra hc
    push Not at hc
    have hc' : (s:ℝ) ≤ 0 := by exact_mod_cast hc
    have h3 := (abs_le.1 hs).1
    have hS' : 0 < √(S:ℝ) := Real.sqrt_pos.2 (lt_of_lt_of_le (by norm_num) ((Rat.cast_le (K := ℝ)).2 S1) : (0:ℝ) < S)
    have : sqrtK f S * uro f * √(S:ℝ) ≤ 1 / 10 ^ 5 * √(S:ℝ) := mul_le_mul_of_nonneg_right hK hS'.le
    norm_num at this
    linarith
  -- smallness of the perturbation
  have hqt : uro f * (q / √((q:ℝ) ^ 2 - 1)) ≤ 3 / 10 ^ 4 := by
    have h3 : (uro f : ℝ) * (q / √((q:ℝ) ^ 2 - 1)) ≤ uro f + √(uro f : ℝ) := by
      rw [mul_div_assoc', div_le_iff₀ ht0]
      have hsu := Real.mul_self_sqrt u0.le
      have hsu0 := Real.sqrt_pos.2 u0
      have h4 : √(uro f : ℝ) ≤ √((q:ℝ) ^ 2 - 1) := Real.sqrt_le_sqrt hS2
      have h5 : (q:ℝ) ≤ 1 + √((q:ℝ) ^ 2 - 1) := by
        nlinarith
      have h6 : (uro f : ℝ) * q ≤ uro f * (1 + √((q:ℝ) ^ 2 - 1)) := mul_le_mul_of_nonneg_left h5 u0.le
      have h7 : √(uro f : ℝ) * √(uro f : ℝ) ≤ √(uro f : ℝ) * √((q:ℝ) ^ 2 - 1) := mul_le_mul_of_nonneg_left h4 hsu0.le
      linarith
    have h4 : √(uro f : ℝ) ≤ 1 / 4096 := by
      rw [Real.sqrt_le_left (by norm_num)]
      norm_num at u1 ⊢; exact u1
    norm_num at u1 ⊢
    linarith
  have hov : |q + s| ≤ 3 / 4 * pow2 f.emax := by
    have h1' := (Rat.cast_le (K := ℝ)).2 hE2
    have hb : (q:ℝ) ≤ ((pow2 (f.emax / 2 - 1) : ℚ) : ℝ) := by exact_mod_cast h
    push_cast at h1'
    have h3 := (abs_le.1 hst).2
    have h4 : 102 / 100 * (uro f : ℝ) * ((q:ℝ) ^ 2 / √((q:ℝ) ^ 2 - 1)) ≤ 1 / 100 * q := by
      have := mul_le_mul_of_nonneg_right hqt (show (0:ℝ) ≤ q by linarith)
      have e : 102 / 100 * (uro f : ℝ) * ((q:ℝ) ^ 2 / √((q:ℝ) ^ 2 - 1)) = 102 / 100 * ((uro f : ℝ) * (q / √((q:ℝ) ^ 2 - 1)) * q) := by
        field_simp
      rw [e]; norm_num at this; linarith
    have h5 : (sqrtK f S + 102 / 100) * uro f * √((q:ℝ) ^ 2 - 1) ≤ 1 / 100 * √((q:ℝ) ^ 2 - 1) :=
      mul_le_mul_of_nonneg_right (by norm_num at hK u1 ⊢; linarith) ht0.le
    have h2 : (q:ℝ) + s ≤ 3 / 4 * ((pow2 f.emax : ℚ) : ℝ) := by linarith
    rw [abs_of_pos (by linarith)]
    have h3 : ((q + s : ℚ) : ℝ) ≤ ((3 / 4 * pow2 f.emax : ℚ) : ℝ) := by push_cast; exact h2
    exact_mod_cast h3
  obtain ⟨w2, hw2⟩ := (is_fin (f := f) q z).add (is_fin s false) (nov_big hov)
  have hv2 : Valid (fin (rnd f (q + s)) w2 : FV f) := by rw [← hw2]; exact valid_add _ _
  have e3 := rnd_err_rel (f := f) (q := q + s) (by
    rw [abs_of_pos (by linarith)]
    have := minNormal_le' f
    norm_num at this; linarith)
  rw [abs_of_pos (show 0 < q + s by linarith)] at e3
  have e3' := (Rat.cast_le (K := ℝ)).2 e3
  push_cast at e3'
  have hRge : 1 / 2 ≤ rnd f (q + s) := by
    have := le_rnd_of_rep (f := f) rone (show 1 ≤ q + s by linarith)
    linarith
  have hy0 : 0 < (q:ℝ) + √((q:ℝ) ^ 2 - 1) := by linarith
  have hyp : |((rnd f (q + s) : ℚ) : ℝ) - (q + √((q:ℝ) ^ 2 - 1))| ≤
      ((sqrtK f S / 2 + 16 / 10) * uro f + 103 / 100 * uro f * (q / √((q:ℝ) ^ 2 - 1))) * (q + √((q:ℝ) ^ 2 - 1)) := by
    have eX : (q:ℝ) ^ 2 / √((q:ℝ) ^ 2 - 1) = q / √((q:ℝ) ^ 2 - 1) * q := by field_simp
    rw [eX] at hst
    have hX0 : 0 < (q:ℝ) / √((q:ℝ) ^ 2 - 1) := by positivity
    generalize (q:ℝ) / √((q:ℝ) ^ 2 - 1) = X at *
    generalize √((q:ℝ) ^ 2 - 1) = t at *
    generalize sqrtK f S = K at *
    generalize ((uro f : ℚ) : ℝ) = u at *
    generalize ((rnd f (q + s) : ℚ) : ℝ) = R at *
    have e2 : R - (q + t) = (R - (q + s)) + (s - t) := by ring
    rw [e2]
    refine (abs_add_le _ _).trans ((add_le_add e3' hst).trans ?_)
    have g1 := (abs_le.1 hst).2
    have g2 : u * ((q:ℝ) + s) ≤ u * (q + t + (102 / 100 * u * (X * q) + (K + 102 / 100) * u * t)) :=
      mul_le_mul_of_nonneg_left (by linarith) u0.le
    have g3 : u * (u * (X * q)) ≤ 1 / 1000 * (u * (X * q)) := mul_le_mul_of_nonneg_right (u1.trans (by norm_num)) (by positivity)
    have g4 : (K + 102 / 100) * u * (u * t) ≤ 1 / 1000 * (u * t) := mul_le_mul_of_nonneg_right (by norm_num at hK u1 ⊢; linarith) (by positivity)
    have g5 : 0 ≤ u * (X * q) := by positivity
    have g6 : 0 ≤ u * (X * t) := by positivity
    have g7 : 0 ≤ u * t := by positivity
    have g8 : u * t ≤ u * q := mul_le_mul_of_nonneg_left htq u0.le
    have g9 : (K / 2 + 51 / 100) * (u * t) ≤ (K / 2 + 51 / 100) * (u * q) := mul_le_mul_of_nonneg_left g8 (by linarith)
    calc u * ((q:ℝ) + s) + (102 / 100 * u * (X * q) + (K + 102 / 100) * u * t)
        ≤ u * (q + t + (102 / 100 * u * (X * q) + (K + 102 / 100) * u * t)) + (102 / 100 * u * (X * q) + (K + 102 / 100) * u * t) := by linarith
      _ = u * q + u * t + 102 / 100 * (u * (u * (X * q))) + (K + 102 / 100) * u * (u * t) + 102 / 100 * (u * (X * q)) + (K + 102 / 100) * (u * t) := by ring
      _ ≤ u * q + u * t + 103 / 100 * (u * (X * q)) + (K / 2 + 52 / 100) * (u * t) + (K / 2 + 51 / 100) * (u * t) := by linarith
      _ ≤ u * q + u * t + 103 / 100 * (u * (X * q)) + (K / 2 + 52 / 100) * (u * t) + (K / 2 + 51 / 100) * (u * q) := by linarith
      _ ≤ ((K / 2 + 16 / 10) * u + 103 / 100 * u * X) * (q + t) := by
        have : ((K / 2 + 16 / 10) * u + 103 / 100 * u * X) * (q + t) =
          (K / 2 + 16 / 10) * (u * q) + (K / 2 + 16 / 10) * (u * t) + 103 / 100 * (u * (X * q)) + 103 / 100 * (u * (X * t)) := by ring
        rw [this]
        linarith
  obtain ⟨r, w', el, h2⟩ := log_at hf hv2 hRge hy0 hyp (by
    have : (sqrtK f S / 2 + 16 / 10) * uro f ≤ 1 / 10 ^ 4 := by norm_num at hK u1 ⊢; linarith
    norm_num at this hqt ⊢
    linarith)
  rw [abs_of_nonneg hA] at h2
  refine ⟨S, r, w', ?_, S4, h2⟩
  rw [eac, hw, es]
  simp only [bind, Except.bind]
  rw [hw2, el]

namespace Props

/-- C69: for every `1 < x ≤ 2` the error of `acosh` is at most `(19 + 5 arcosh x + 1.1 x/√(x²-1)) u`. -/
theorem C69_acosh_near (hf : f.exact = false) (q : ℚ) (z : Bool) (hx : Valid (fin q z : FV f)) (h1 : 1 < q) (h2 : q ≤ 2) :
    ∃ r w, acosh (fin q z : FV f) = .ok (fin r w) ∧
      |(r:ℝ) - Real.arcosh q| ≤ (19 + 5 * Real.arcosh q + 11 / 10 * (q / √((q:ℝ) ^ 2 - 1))) * (1 / 2 ^ f.prec) := by
  have u0 := uro_pos_real f
  obtain ⟨S, r, w, e, h4, h6⟩ := acosh_core (z := z) hf hx h1 (h2.trans (by
    rcases f with ⟨⟨⟩, ⟨⟩⟩ <;> decide +kernel))
  refine ⟨r, w, e, h6.trans ?_⟩
  rw [← uro_eq, sqrtK, if_pos (h4 h2)]
  have q0 : (0:ℝ) ≤ q := by exact_mod_cast (show 0 ≤ q by linarith)
  have : 0 ≤ uro f * ((q:ℝ) / √((q:ℝ) ^ 2 - 1)) := by positivity
  linarith

/-- C69: for every `1 < x` up to `2^63`, `2^511`, `2^8191` the error of `acosh` is at most
`(c + 5 arcosh x + 1.1 x/√(x²-1)) u` with `c = 37, 91, 1007` for the three types. -/
theorem C69_acosh (hf : f.exact = false) (q : ℚ) (z : Bool) (hx : Valid (fin q z : FV f)) (h1 : 1 < q)
    (h2 : q ≤ pow2 (f.emax / 2 - 1)) :
    ∃ r w, acosh (fin q z : FV f) = .ok (fin r w) ∧
      |(r:ℝ) - Real.arcosh q| ≤ (ahypC f.ty + 5 * Real.arcosh q + 11 / 10 * (q / √((q:ℝ) ^ 2 - 1))) * (1 / 2 ^ f.prec) := by
  have u0 := uro_pos_real f
  obtain ⟨S, r, w, e, -, h6⟩ := acosh_core (z := z) hf hx h1 h2
  refine ⟨r, w, e, h6.trans ?_⟩
  have := mul_le_mul_of_nonneg_right (sqrtK_type f S) u0.le
  have h3 := mul_le_mul_of_nonneg_right (sqrtK_bounds f S).1 u0.le
  rw [← uro_eq]
  have q0 : (0:ℝ) ≤ q := by exact_mod_cast (show 0 ≤ q by linarith)
  have : 0 ≤ uro f * ((q:ℝ) / √((q:ℝ) ^ 2 - 1)) := by positivity
  linarith

/-- C69 (no relative bound): `asinh` and `atanh` lose small arguments entirely. -/
theorem C69_not_relative : asinh (fin (1 / 2 ^ 54) false : FV binary64) = .ok (fin 0 false) ∧
    atanh (fin (1 / 2 ^ 55) false : FV binary64) = .ok (fin 0 false) ∧ 
    Valid (fin (1 / 2 ^ 54) false : FV binary64) ∧ 0 < Real.arsinh (1 / 2 ^ 54) ∧ 0 < Real.artanh (1 / 2 ^ 55) := by
  refine ⟨by decide +kernel, by decide +kernel, by decide +kernel, Real.arsinh_pos_iff.2 (by norm_num), Real.artanh_pos ⟨by norm_num, by norm_num⟩⟩

example : ∃ r w, atanh (fin (3 / 4) false : FV binary64) = .ok (fin r w) ∧
    |(r:ℝ) - Real.artanh ((3 / 4 : ℚ) : ℝ)| ≤ (10 + 7 * |Real.artanh ((3 / 4 : ℚ) : ℝ)|) * (1 / 2 ^ 53) :=
  C69_atanh (f := binary64) rfl _ false (by decide +kernel) (by decide +kernel) (by norm_num) (by norm_num)

example : ∃ r w, atanh (fin (-1 / 2) false : FV binary32) = .ok (fin r w) ∧
    |(r:ℝ) - Real.artanh ((-1 / 2 : ℚ) : ℝ)| ≤ (22 + 7 * |Real.artanh ((-1 / 2 : ℚ) : ℝ)|) * (1 / 2 ^ 24) :=
  C69_atanh_neg (f := binary32) rfl _ false (by decide +kernel) (by norm_num) (by norm_num) (by
    intro e
    have e0 : (1 + ((-1 / 2 : ℚ) : ℝ)) / (1 - ((-1 / 2 : ℚ) : ℝ)) = 1 / 3 := by norm_num
    rw [e0]
    rcases le_or_gt 0 e with c | c
    · have : (1:ℝ) ≤ 10 ^ e := one_le_zpow₀ (by norm_num) c
      rw [abs_of_neg (by linarith)]
      linarith
    · have h1 : (10:ℝ) ^ e ≤ 10 ^ (-1 : ℤ) := zpow_le_zpow_right₀ (by norm_num) (by omega)
      have h0 : (0:ℝ) < 10 ^ e := by positivity
      norm_num at h1
      rw [abs_of_pos (by linarith)]
      linarith)

example : ∃ r w, asinh (fin (-1 / 4) false : FV x87) = .ok (fin r w) ∧
    |(r:ℝ) - Real.arsinh ((-1 / 4 : ℚ) : ℝ)| ≤ (27 + 5 * |Real.arsinh ((-1 / 4 : ℚ) : ℝ)|) * (1 / 2 ^ 64) :=
  C69_asinh_mid (f := x87) rfl _ false (by decide +kernel) (by norm_num) (by norm_num)

example : ∃ r w, asinh (fin (2 ^ 500) false : FV binary64) = .ok (fin r w) ∧
    |(r:ℝ) - Real.arsinh ((2 ^ 500 : ℚ) : ℝ)| ≤ (91 + 5 * Real.arsinh ((2 ^ 500 : ℚ) : ℝ)) * (1 / 2 ^ 53) :=
  C69_asinh (f := binary64) rfl _ false (by decide +kernel) (by decide +kernel)

example : ∃ r w, acosh (fin (3 / 2) false : FV binary32) = .ok (fin r w) ∧
    |(r:ℝ) - Real.arcosh ((3 / 2 : ℚ) : ℝ)| ≤
      (19 + 5 * Real.arcosh ((3 / 2 : ℚ) : ℝ) + 11 / 10 * (((3 / 2 : ℚ) : ℝ) / √(((3 / 2 : ℚ) : ℝ) ^ 2 - 1))) * (1 / 2 ^ 24) :=
  C69_acosh_near (f := binary32) rfl _ false (by decide +kernel) (by norm_num) (by norm_num)

example : ∃ r w, acosh (fin (2 ^ 60) false : FV binary32) = .ok (fin r w) ∧
    |(r:ℝ) - Real.arcosh ((2 ^ 60 : ℚ) : ℝ)| ≤
      (37 + 5 * Real.arcosh ((2 ^ 60 : ℚ) : ℝ) + 11 / 10 * (((2 ^ 60 : ℚ) : ℝ) / √(((2 ^ 60 : ℚ) : ℝ) ^ 2 - 1))) * (1 / 2 ^ 24) :=
  C69_acosh (f := binary32) rfl _ false (by decide +kernel) (by norm_num) (by decide +kernel)

end Props
end Gcem
