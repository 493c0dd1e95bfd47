import Verif.Analysis.LogCf
import Verif.Props.Log
import Verif.Props.ConstsAcc

/-!
# C37: accuracy of `log`
-/

namespace Gcem.Props
open Gcem FV
variable {f : Fmt}

theorem minNormal_le_uro (f : Fmt) : minNormal f ≤ uro f / 8 := by
  rcases f with ⟨⟨⟩, ⟨⟩⟩ <;> decide +kernel

theorem uro_ge (f : Fmt) : 1 / 2 ^ 64 ≤ uro f := by
  rcases f with ⟨⟨⟩, ⟨⟩⟩ <;> decide +kernel

theorem ratio_bound {q : ℚ} (h1 : 1 / 2 ≤ q) (h2 : q ≤ 2) : |(q - 1) / (q + 1)| ≤ 1 / 3 := by
  rw [abs_le, le_div_iff₀ (by linarith), div_le_iff₀ (by linarith)]
  constructor <;> linarith

/-- the reduced argument `(x-1)/(x+1)` -/
theorem log_arg {q : ℚ} {z : Bool} (hf : f.exact = false) (hr : Rep f q) (h1 : 1 / 2 ≤ q) (h2 : q ≤ 2) :
    ∃ t, Is (((fin q z : FV f) - i 1) / (fin q z + i 1)) t ∧ Rep f t ∧ |t| ≤ 7 / 20 ∧
      RelS (t : ℝ) (((q : ℝ) - 1) / (q + 1)) (201 / 100 * uro f) ∧ (q ≠ 1 → uro f / 7 ≤ |t|) ∧ (q = 1 → t = 0) := by
  have o1 : Is (i 1 : FV f) 1 := by simpa using is_i (f := f) (n := 1) (by norm_num)
  have hs1 := rep_sub_one hf hr h1 h2
  have a1 : Is ((fin q z : FV f) - i 1) (q - 1) := by
    have := (is_fin (f := f) q z).sub o1 (nov (by rw [abs_le]; constructor <;> linarith))
    rwa [hs1] at this
  have a2 := (is_fin (f := f) q z).add o1 (nov (by rw [abs_le]; constructor <;> linarith))
  have hu := uro_pos f
  have hu1 := uro_lt_half f
  have hur := uro_pos_real f
  have hmn := minNormal_le_uro f
  have hn2 : minNormal f ≤ |q + 1| := by rw [abs_of_pos (by linarith)]; linarith
  have e2 := relS_rnd hn2
  have e2' := rnd_err_rel hn2
  rw [abs_of_pos (show 0 < q + 1 by linarith)] at e2'
  have e2'' := abs_le.1 e2'
  have p1 : (1 - uro f) * (q + 1) ≤ rnd f (q + 1) := by linarith
  have p2 : rnd f (q + 1) ≤ (1 + uro f) * (q + 1) := by linarith
  have pp : 14 / 10 ≤ rnd f (q + 1) := by nlinarith
  have pp2 : rnd f (q + 1) ≤ 301 / 100 := by nlinarith
  generalize rnd f (q + 1) = p at *
  have pb : |(q - 1) / p| ≤ 334 / 1000 := by
    rw [abs_le, le_div_iff₀ (by linarith), div_le_iff₀ (by linarith)]
    have h3 : 999 / 1000 * (q + 1) ≤ p := by nlinarith
    constructor <;> nlinarith
  have a3 := a1.div a2 (by linarith) (nov (pb.trans (by norm_num)))
  have pR : (14 / 10 : ℝ) ≤ p := by
    have := (Rat.cast_le (K := ℝ)).2 pp; push_cast at this; exact this
  have qR : (1 / 2 : ℝ) ≤ q := by
    have := (Rat.cast_le (K := ℝ)).2 h1; push_cast at this; exact this
  refine ⟨_, a3, rep_rnd _ _, ?_, ?_, ?_, ?_⟩
  · have := rnd_abs (f := f) (B := 334 / 1000) (by norm_num) pb
    have h3 := wro_le f
    have e : rnd f ((q - 1) / p) = (q - 1) / p + (rnd f ((q - 1) / p) - (q - 1) / p) := by ring
    rw [e]
    refine (abs_add_le _ _).trans ((add_le_add pb this).trans ?_)
    norm_num at h3 ⊢
    linarith
  · -- relative error
    have hur1 := uro_le f
    have r1 : RelS (((q - 1) / p : ℚ) : ℝ) (((q : ℝ) - 1) / (q + 1)) (10001 / 10000 * uro f) := by
      unfold RelS at *
      push_cast at *
      have e : ((q : ℝ) - 1) / p - (q - 1) / (q + 1) = -(((q : ℝ) - 1) / (q + 1)) * ((p - (q + 1)) / p) := by
        field_simp; ring
      rw [e, abs_mul, abs_neg, mul_comm, abs_div ((p:ℝ) - (q + 1))]
      refine mul_le_mul_of_nonneg_right ?_ (abs_nonneg _)
      rw [abs_of_pos (show (0:ℝ) < p by linarith), div_le_iff₀ (by linarith)]
      rw [abs_of_pos (show (0:ℝ) < q + 1 by linarith)] at e2
      refine e2.trans ?_
      have := (abs_le.1 e2).1
      have h5 : (q:ℝ) + 1 ≤ 10001 / 10000 * p := by nlinarith
      nlinarith
    by_cases hq : q = 1
    · subst hq; simp [RelS, rnd_zero]
    have hne := sub_one_ge hf hr h1 h2 hq
    have hn3 : minNormal f ≤ |(q - 1) / p| := by
      rw [abs_div, abs_of_pos (show 0 < p by linarith), le_div_iff₀ (by linarith)]
      nlinarith
    refine ((relS_rnd hn3).trans r1 hur.le).mono ?_
    nlinarith
  · intro hq
    have hne := sub_one_ge hf hr h1 h2 hq
    have hb : uro f / 4 ≤ |(q - 1) / p| := by
      rw [abs_div, abs_of_pos (show 0 < p by linarith), le_div_iff₀ (by linarith)]
      nlinarith
    have hn3 : minNormal f ≤ |(q - 1) / p| := by linarith
    have := rnd_err_rel hn3
    have h4 := abs_sub_abs_le_abs_sub ((q - 1) / p) (rnd f ((q - 1) / p))
    rw [abs_sub_comm] at h4
    nlinarith [abs_nonneg ((q - 1) / p)]
  · rintro rfl; simp [rnd_zero]

/-- `log_main` on `[1/2, 2]`: five unit roundoffs, relative to `ln x` -/
theorem log_main_rel {q : ℚ} {z : Bool} (hf : f.exact = false) (hr : Rep f q) (h1 : 1 / 2 ≤ q) (h2 : q ≤ 2) :
    ∃ r w, log_main (fin q z : FV f) = fin r w ∧ RelS (r : ℝ) (Real.log q) (5 * uro f) := by
  obtain ⟨t, ht, htr, htb, hrel, hlow, hzero⟩ := log_arg (z := z) hf hr h1 h2
  have hu := uro_pos f
  have hu1 := uro_lt_half f
  have hug := uro_ge f
  have hmn := minNormal_le_uro f
  have hur := uro_pos_real f
  have hur1 := uro_le f
  have hugr : (1 / 2 ^ 64 : ℝ) ≤ uro f := by
    have := (Rat.cast_le (K := ℝ)).2 hug; push_cast at this; exact this
  have ts : t * t ≤ 1 / 8 := by
    have := mul_le_mul htb htb (abs_nonneg _) (by norm_num)
    rw [abs_mul_abs_self] at this; linarith
  have ts0 : 0 ≤ t * t := mul_self_nonneg t
  obtain ⟨w, hw⟩ := ht
  have hxx : Ap (fin t w * fin t w : FV f) (t * t) (1 / 8) :=
    (is_fin (f := f) t w).ap.mul (is_fin (f := f) t w).ap (P := 7 / 20) (Q := 7 / 20) (C := 0) htb htb (by norm_num)
      (by norm_num) (by norm_num) (by norm_num) (by norm_num)
  obtain ⟨a, ha, hae⟩ := log_cf_err hxx ts0 ts
  obtain ⟨T1, T2⟩ := log_T1_ge (t * t) ts0 ts
  have hTr : ((cfT sqC (t * t) 24 1 : ℚ) : ℝ) = cfT sqC ((t:ℝ) ^ 2) 24 1 := by
    rw [cfT_cast]; push_cast; congr 1
    · funext d; exact sqC_cast d
    · ring
  generalize hT : cfT sqC (t * t) 24 1 = T at *
  have hwl := wro_le f
  have ab := abs_le.1 hae
  have a1 : 952 / 1000 ≤ a := by nlinarith [ab.1]
  have two : Is (i 2 : FV f) 2 := by simpa using is_i (f := f) (n := 2) (by norm_num)
  have m1 : Is (i 2 * fin t w : FV f) (2 * t) := by
    have := two.mul (is_fin (f := f) t w) (nov (by rw [abs_mul]; norm_num; linarith))
    rwa [rep_double htr] at this
  have tb2 : |2 * t / a| ≤ 1 := by
    rw [abs_div, abs_of_pos (show 0 < a by linarith), div_le_iff₀ (by linarith), abs_mul]; norm_num; linarith
  obtain ⟨w', m2⟩ := m1.div ha (by linarith) (nov (tb2.trans (by norm_num)))
  refine ⟨rnd f (2 * t / a), w', ?_, ?_⟩
  · unfold log_main log_cf_begin
    rw [hw]; exact m2
  -- real part
  have aR : (952 / 1000 : ℝ) ≤ a := by have := (Rat.cast_le (K := ℝ)).2 a1; push_cast at this; exact this
  have TR : (953 / 1000 : ℝ) ≤ T := by have := (Rat.cast_le (K := ℝ)).2 T1; push_cast at this; exact this
  have haeR : |(a : ℝ) - T| ≤ 61 / 50 * (1001 / 1000 * uro f) := by
    unfold wro at hae
    have := (Rat.cast_le (K := ℝ)).2 hae; push_cast at this; exact this
  have s1 : RelS ((2 * t / a : ℚ) : ℝ) (2 * (t / T)) (1283 / 1000 * uro f) := by
    unfold RelS
    push_cast
    have e : 2 * (t:ℝ) / a - 2 * (t / T) = (2 * ((t:ℝ) / T)) * ((T - a) / a) := by field_simp
    rw [e, abs_mul, mul_comm, abs_div ((T:ℝ) - a), abs_sub_comm]
    refine mul_le_mul_of_nonneg_right ?_ (abs_nonneg _)
    rw [abs_of_pos (show (0:ℝ) < a by linarith), div_le_iff₀ (by linarith)]
    nlinarith
  have tR : |(t:ℝ)| ≤ 7 / 20 := by have := (Rat.cast_le (K := ℝ)).2 htb; push_cast at this; exact this
  have t2R : (t:ℝ) ^ 2 ≤ 1 / 8 := by
    have := (Rat.cast_le (K := ℝ)).2 ts; push_cast at this; linarith
  have s2 : RelS (2 * ((t:ℝ) / T)) (L2 t) (1 / 10 ^ 30) := by
    unfold RelS
    have h3 := log_cf_trunc t2R
    rw [← hTr] at h3
    have h4 := L2_abs_ge (z := t) (by linarith)
    have := abs_nonneg (t:ℝ)
    refine h3.trans ?_
    have : |(t:ℝ)| ≤ |L2 t| := by linarith
    gcongr
  have hq0 : (0:ℝ) < q := by exact_mod_cast (show 0 < q by linarith)
  have s3 : RelS (L2 t) (Real.log q) (230 / 100 * uro f) := by
    rw [← L2_of q hq0]
    have hz : |((q:ℝ) - 1) / (q + 1)| ≤ 7 / 20 := by
      have := (Rat.cast_le (K := ℝ)).2 (ratio_bound h1 h2); push_cast at this
      linarith
    generalize ((q:ℝ) - 1) / (q + 1) = z0 at *
    unfold RelS at *
    have h3 := L2_lipschitz (r := 7 / 20) (by norm_num) tR hz
    have h4 := L2_abs_ge (z := z0) (by linarith)
    refine h3.trans ((mul_le_mul_of_nonneg_left hrel (by norm_num)).trans ?_)
    have h5 : (uro f : ℝ) * (2 * |z0|) ≤ uro f * |L2 z0| := mul_le_mul_of_nonneg_left h4 hur.le
    have h6 : 0 ≤ (uro f : ℝ) * |z0| := by positivity
    norm_num
    linarith
  have uu : (uro f : ℝ) * uro f ≤ 1 / 16777216 * uro f := mul_le_mul_of_nonneg_right hur1 hur.le
  have s12 := (s1.trans s2 (by positivity)).mono (ε' := 1284 / 1000 * uro f) (by norm_num at hugr ⊢; linarith)
  have s123 := (s12.trans s3 (by positivity)).mono (ε' := 359 / 100 * uro f) (by
    have e : 1284 / 1000 * (uro f : ℝ) * (230 / 100 * uro f) = 1284 / 1000 * (230 / 100) * ((uro f : ℝ) * uro f) := by ring
    rw [e]; linarith)
  by_cases hq1 : q = 1
  · have : t = 0 := hzero hq1
    subst this; subst hq1
    simp [RelS, rnd_zero]
  have hn : minNormal f ≤ |2 * t / a| := by
    have := hlow hq1
    have a2 : a ≤ 2 := by nlinarith [ab.2]
    rw [abs_div, abs_of_pos (show 0 < a by linarith), le_div_iff₀ (by linarith), abs_mul]
    norm_num
    have := minNormal_pos f
    nlinarith
  have s0 := relS_rnd hn
  refine (s0.trans s123 hur.le).mono ?_
  have e : (uro f : ℝ) * (359 / 100 * uro f) = 359 / 100 * ((uro f : ℝ) * uro f) := by ring
  rw [e]; linarith

/-- C37: on `[1/2, 3/2]` the result is within five unit roundoffs of `ln x`, relative to `ln x` itself
(also next to one, where `ln x` is small). -/
theorem C37_direct_range (hf : f.exact = false) (q : ℚ) (z : Bool) (hx : Valid (fin q z : FV f))
    (h1 : 1 / 2 ≤ q) (h2 : q ≤ 3 / 2) :
    ∃ r w, log (fin q z : FV f) = .ok (fin r w) ∧ |(r : ℝ) - Real.log q| ≤ 5 * (1 / 2 ^ f.prec) * |Real.log q| := by
  have hmn : minNormal f ≤ q := by have := minNormal_le_uro f; have := uro_lt_half f; linarith
  rw [← uro_eq]
  by_cases hc : (limMin : FV f) > fabs ((fin q z : FV f) - i 1)
  · refine ⟨0, false, log_near_one hmn hc, ?_⟩
    have o1 : Is (i 1 : FV f) 1 := by simpa using is_i (f := f) (n := 1) (by norm_num)
    have hs := (is_fin (f := f) q z).sub o1 (nov (by rw [abs_le]; constructor <;> linarith))
    rw [rep_sub_one hf hx.rep h1 (by linarith)] at hs
    have hl : Is (limMin : FV f) (minNormal f) := ⟨false, rfl⟩
    rw [gt_iff, hs.fabs.lt_iff hl] at hc
    have : q = 1 := by
      by_contra hne
      have a := sub_one_ge hf hx.rep h1 (by linarith) hne
      have := minNormal_le_uro f
      have := uro_pos f
      linarith
    subst this; simp
  · rw [log_normal hmn hc, if_neg (by push Not; exact ⟨h1, h2⟩)]
    obtain ⟨r, w, e1, e2⟩ := log_main_rel (z := z) hf hx.rep h1 (by linarith)
    exact ⟨r, w, by rw [e1], e2⟩

/-! ## The decimal breakup -/

theorem log_near {k : ℕ} {θ : ℚ} (h : Near (uro f) k θ) : |Real.log θ| ≤ 1001 / 1000 * (k * uro f) := by
  have hur := uro_pos_real f
  have hur1 := uro_le f
  have h1 : (1 - (uro f : ℝ)) ^ k ≤ θ := by
    have := (Rat.cast_le (K := ℝ)).2 h.1; push_cast at this; exact this
  have h2 : (θ : ℝ) ≤ (1 + (uro f : ℝ)) ^ k := by
    have := (Rat.cast_le (K := ℝ)).2 h.2; push_cast at this; exact this
  have hθ : (0:ℝ) < θ := lt_of_lt_of_le (pow_pos (by linarith) _) h1
  have k0 : (0:ℝ) ≤ k := Nat.cast_nonneg k
  have a := Real.log_le_log (pow_pos (show (0:ℝ) < 1 - uro f by linarith) k) h1
  have b := Real.log_le_log hθ h2
  rw [Real.log_pow] at a b
  have a' := Real.one_sub_inv_le_log_of_pos (show (0:ℝ) < 1 - uro f by linarith)
  have b' := Real.log_le_sub_one_of_pos (show (0:ℝ) < 1 + uro f by linarith)
  have a'' : -(1001 / 1000 * (uro f : ℝ)) ≤ Real.log (1 - uro f) := by
    refine le_trans ?_ a'
    have : (1 - (uro f : ℝ))⁻¹ ≤ 1 + 1001 / 1000 * uro f := by
      rw [inv_eq_one_div, div_le_iff₀ (by linarith)]; nlinarith
    linarith
  have c1 := mul_le_mul_of_nonneg_left a'' k0
  have c2 := mul_le_mul_of_nonneg_left b' k0
  rw [abs_le]
  constructor <;> nlinarith

theorem log10_bounds : 2302 / 1000 ≤ Real.log 10 ∧ Real.log 10 ≤ 2303 / 1000 := by
  have h := abs_le.1 LOG_10_err
  have e : (LOG_10 : ℝ) = 23025850929940456840179914546843642076011 / 10 ^ 40 := by unfold LOG_10; norm_num
  rw [e] at h
  push_cast at h
  norm_num at h ⊢
  constructor <;> linarith [h.1, h.2]

theorem log2_bounds : 693 / 1000 ≤ Real.log 2 ∧ Real.log 2 ≤ 694 / 1000 :=
  ⟨by have := Real.log_two_gt_d9; linarith, by have := Real.log_two_lt_d9; linarith⟩

theorem uro_ldbl_le (f : Fmt) : uro f.ldbl ≤ uro f := by rcases f with ⟨⟨⟩, ⟨⟩⟩ <;> decide +kernel

/-- the logarithm of the leading digit -/
theorem log_digit_err (n : ℤ) (h1 : 1 ≤ n) (h2 : n ≤ 10) :
    ∃ v w, (L (log_mantissa_integer n) : FV f) = fin v w ∧ |(v : ℝ) - Real.log n| ≤ 462 / 100 * uro f ∧
      0 ≤ v ∧ v ≤ 231 / 100 := by
  have hur := uro_pos_real f
  rcases h1.eq_or_lt with rfl | h1'
  · have e : log_mantissa_integer 1 = 0 := by decide +kernel
    rw [e]
    refine ⟨0, false, ?_, ?_, le_rfl, by norm_num⟩
    · unfold L; rw [rnd_zero, mk_fin (by rw [rnd_zero]; exact nov' (by norm_num)), rnd_zero]; simp
    · simp; exact (uro_pos f).le
  have hb : 1 / 2 ≤ log_mantissa_integer n ∧ log_mantissa_integer n ≤ 2303 / 1000 := by
    obtain rfl | rfl | rfl | rfl | rfl | rfl | rfl | rfl | rfl :
      n = 2 ∨ n = 3 ∨ n = 4 ∨ n = 5 ∨ n = 6 ∨ n = 7 ∨ n = 8 ∨ n = 9 ∨ n = 10 := by omega
    all_goals decide +kernel
  obtain ⟨v, w, e1, e2⟩ := L_err (f := f) (c := log_mantissa_integer n) (by linarith [hb.1]) (by linarith [hb.2])
  have hl := uro_ldbl_le f
  have hl0 := uro_pos f.ldbl
  have hu := uro_pos f
  have hu1 := uro_lt_half f
  have e3 : |v - log_mantissa_integer n| ≤ 2001 / 1000 * uro f * (2303 / 1000) := by
    refine e2.trans (mul_le_mul ?_ hb.2 (by linarith [hb.1]) (by positivity))
    nlinarith
  have e4 := abs_le.1 e3
  refine ⟨v, w, e1, ?_, ?_, ?_⟩
  · have t := C61_log_table n h1 h2
    have e3r := (Rat.cast_le (K := ℝ)).2 e3
    push_cast at e3r t
    have hug : (1 / 2 ^ 64 : ℝ) ≤ uro f := by
      have := (Rat.cast_le (K := ℝ)).2 (uro_ge f); push_cast at this; exact this
    have e : (v:ℝ) - Real.log n = (v - log_mantissa_integer n) + (log_mantissa_integer n - Real.log n) := by ring
    rw [e]
    refine (abs_add_le _ _).trans ((add_le_add e3r t).trans ?_)
    norm_num at hug ⊢
    linarith
  · nlinarith [e4.1, hb.1]
  · nlinarith [e4.2, hb.2]

/-- the mantissa part of the breakup -/
theorem log_mant_err (hf : f.exact = false) {m : ℚ} {w : Bool} (h1 : 1 ≤ m) (h2 : m ≤ 10) :
    ∃ s w', log_main (fin m w / i ⌊m⌋ : FV f) + L (log_mantissa_integer ⌊m⌋) = fin s w' ∧
      |(s : ℝ) - Real.log m| ≤ 1142 / 100 * uro f := by
  obtain ⟨-, n1, n2⟩ := toI32_digit (f := f) (w := w) h1 h2
  have fl := Int.floor_le m
  have fu := Int.lt_floor_add_one m
  obtain ⟨v, wv, ev, ve, v0, v1⟩ := log_digit_err (f := f) ⌊m⌋ n1 n2
  generalize ⌊m⌋ = n at *
  have n1q : (1:ℚ) ≤ n := by exact_mod_cast n1
  have n2q : (n:ℚ) ≤ 10 := by exact_mod_cast n2
  have hu := uro_pos f
  have hu1 := uro_lt_half f
  have hur := uro_pos_real f
  have hur1 := uro_le f
  have hmn := minNormal_le_uro f
  -- y = m / n
  have in1 : Is (i n : FV f) n := is_i (by rw [abs_le]; constructor <;> omega)
  have y1 : 1 ≤ m / n := by rw [le_div_iff₀ (by linarith)]; linarith
  have y2 : m / n ≤ 2 := by rw [div_le_iff₀ (by linarith)]; linarith
  have rep2 : Rep f 2 := by simpa using rep_double (rep_one (f := f))
  obtain ⟨wy, hy⟩ := (is_fin (f := f) m w).div in1 (by linarith) (nov (by rw [abs_of_pos (by linarith)]; linarith))
  have ry1 : 1 ≤ rnd f (m / n) := le_rnd_of_rep rep_one y1
  have ry2 : rnd f (m / n) ≤ 2 := rnd_le_of_rep rep2 y2
  obtain ⟨θ, hθ, hyθ⟩ := rnd_near (f := f) (q := m / n) (by linarith)
  have hlθ := log_near hθ
  rw [hy]
  obtain ⟨r1, w1, er1, r1e⟩ := log_main_rel (z := wy) hf (rep_rnd f (m / n)) (by linarith) ry2
  rw [er1, ev]
  -- the real logarithms
  have hθ0 : 0 < θ := near_pos (by linarith) hθ
  have hθr : (0:ℝ) < θ := by exact_mod_cast hθ0
  have mr : (1:ℝ) ≤ m := by exact_mod_cast h1
  have mr2 : (m:ℝ) ≤ 10 := by exact_mod_cast h2
  have nr : (1:ℝ) ≤ n := by exact_mod_cast n1
  have hlogy : Real.log (rnd f (m / n) : ℚ) = Real.log m - Real.log n + Real.log θ := by
    rw [hyθ]; push_cast
    rw [Real.log_mul (by positivity) hθr.ne', Real.log_div (by positivity) (by positivity)]
  have ly0 : 0 ≤ Real.log (rnd f (m / n) : ℚ) := Real.log_nonneg (by exact_mod_cast ry1)
  have ly1 : Real.log (rnd f (m / n) : ℚ) ≤ 694 / 1000 :=
    le_trans (Real.log_le_log (by have : (1:ℝ) ≤ (rnd f (m / n) : ℚ) := by exact_mod_cast ry1
                                  linarith) (by exact_mod_cast ry2)) log2_bounds.2
  unfold RelS at r1e
  rw [abs_of_nonneg ly0] at r1e
  have r1e' : |(r1:ℝ) - (Real.log m - Real.log n)| ≤ 448 / 100 * uro f := by
    have e : (r1:ℝ) - (Real.log m - Real.log n) = (r1 - Real.log (rnd f (m / n) : ℚ)) + Real.log θ := by rw [hlogy]; ring
    rw [e]
    refine (abs_add_le _ _).trans ((add_le_add r1e hlθ).trans ?_)
    push_cast
    nlinarith
  have lm0 : 0 ≤ Real.log m := Real.log_nonneg mr
  have lm1 : Real.log m ≤ 2303 / 1000 := (Real.log_le_log (by linarith) mr2).trans log10_bounds.2
  -- first sum
  have s1 : |((r1 + v : ℚ) : ℝ) - Real.log m| ≤ 91 / 10 * uro f := by
    have e : ((r1 + v : ℚ) : ℝ) - Real.log m = (r1 - (Real.log m - Real.log n)) + (v - Real.log n) := by push_cast; ring
    rw [e]
    refine (abs_add_le _ _).trans ((add_le_add r1e' ve).trans ?_)
    linarith
  have s1b : |r1 + v| ≤ 231 / 100 := by
    have : |((r1 + v : ℚ) : ℝ)| ≤ ((231 / 100 : ℚ) : ℝ) := by
      have e : ((r1 + v : ℚ) : ℝ) = (((r1 + v : ℚ) : ℝ) - Real.log m) + Real.log m := by ring
      rw [e]
      refine (abs_add_le _ _).trans ?_
      rw [abs_of_nonneg lm0]
      push_cast at s1 ⊢
      linarith
    exact_mod_cast this
  obtain ⟨w2, h2s⟩ := (is_fin (f := f) r1 w1).add (is_fin v wv) (nov (s1b.trans (by norm_num)))
  have h2e := rnd_abs (f := f) (B := 231 / 100) (by norm_num) s1b
  rw [h2s]
  generalize rnd f (r1 + v) = s at *
  refine ⟨s, w2, rfl, ?_⟩
  have hs : |(s:ℝ) - Real.log m| ≤ 1142 / 100 * uro f := by
    have e : (s:ℝ) - Real.log m = (s - ((r1 + v : ℚ) : ℝ)) + (((r1 + v : ℚ) : ℝ) - Real.log m) := by ring
    rw [e]
    have h2r := (Rat.cast_le (K := ℝ)).2 h2e
    unfold wro at h2r
    push_cast at h2r s1 ⊢
    refine (abs_add_le _ _).trans ((add_le_add h2r s1).trans ?_)
    linarith
  exact hs

/-- the exponent part of the breakup -/
theorem log_exp_err {k : ℤ} (hk : |k| ≤ 16384) :
    ∃ p w', (L LOG_10 * i k : FV f) = fin p w' ∧ |(p : ℝ) - k * Real.log 10| ≤ 693 / 100 * |(k : ℝ)| * uro f := by
  have hu := uro_pos f
  have hu1 := uro_lt_half f
  have hur := uro_pos_real f
  have hur1 := uro_le f
  -- the exponent term
  have c1 : 2302 / 1000 ≤ LOG_10 ∧ LOG_10 ≤ 2303 / 1000 := by decide +kernel
  obtain ⟨c, wc, ec, ce⟩ := L_err (f := f) (c := LOG_10) (by linarith [c1.1]) (by linarith [c1.2])
  have hl := uro_ldbl_le f
  have hl0 := uro_pos f.ldbl
  have ce' : |c - LOG_10| ≤ 461 / 100 * uro f := by
    refine ce.trans ?_
    have : uro f.ldbl + uro f + uro f.ldbl * uro f ≤ 2001 / 1000 * uro f := by nlinarith
    nlinarith [c1.1, c1.2]
  have cR : |(c:ℝ) - Real.log 10| ≤ 462 / 100 * uro f := by
    have h3 := (Rat.cast_le (K := ℝ)).2 ce'
    have h4 := LOG_10_err
    have hug : (1 / 2 ^ 64 : ℝ) ≤ uro f := by
      have := (Rat.cast_le (K := ℝ)).2 (uro_ge f); push_cast at this; exact this
    push_cast at h3 h4
    have e : (c:ℝ) - Real.log 10 = (c - LOG_10) + (LOG_10 - Real.log 10) := by ring
    rw [e]
    refine (abs_add_le _ _).trans ((add_le_add h3 h4).trans ?_)
    norm_num at hug ⊢
    linarith
  have ik : Is (i k : FV f) k := is_i (by omega)
  have cb : |c| ≤ 2304 / 1000 := by
    have e : c = (c - LOG_10) + LOG_10 := by ring
    rw [e]
    refine (abs_add_le _ _).trans ?_
    rw [abs_of_pos (show 0 < LOG_10 by linarith [c1.1])]
    linarith [c1.2]
  have kq : |(k:ℚ)| ≤ 16384 := by exact_mod_cast hk
  have ckb : |c * k| ≤ 2304 / 1000 * |(k:ℚ)| := by rw [abs_mul]; gcongr
  rw [ec]
  obtain ⟨w3, h3s⟩ := (is_fin (f := f) c wc).mul ik (nov (by have := abs_nonneg (k:ℚ); linarith))
  have kr0 := abs_nonneg (k:ℝ)
  have h3e : |((rnd f (c * k) : ℚ) : ℝ) - ((c * k : ℚ) : ℝ)| ≤ 2307 / 1000 * |(k:ℝ)| * uro f := by
    by_cases hk0 : k = 0
    · subst hk0; simp [rnd_zero]
    have k1 : (1:ℚ) ≤ |(k:ℚ)| := by exact_mod_cast Int.one_le_abs hk0
    have := rnd_abs (f := f) (B := 2304 / 1000 * |(k:ℚ)|) (by linarith) ckb
    have h3 := (Rat.cast_le (K := ℝ)).2 this
    unfold wro at h3
    push_cast at h3 ⊢
    refine h3.trans ?_
    nlinarith [mul_nonneg kr0 hur.le]
  generalize rnd f (c * k) = p at *
  refine ⟨p, w3, h3s, ?_⟩
  have pe : |(p:ℝ) - k * Real.log 10| ≤ 693 / 100 * |(k:ℝ)| * uro f := by
    have e : (p:ℝ) - k * Real.log 10 = (p - ((c * k : ℚ) : ℝ)) + k * (c - Real.log 10) := by push_cast; ring
    rw [e]
    have h5 : |(k:ℝ) * (c - Real.log 10)| ≤ |(k:ℝ)| * (462 / 100 * uro f) := by
      rw [abs_mul]; exact mul_le_mul_of_nonneg_left cR kr0
    refine (abs_add_le _ _).trans ((add_le_add h3e h5).trans ?_)
    nlinarith [mul_nonneg kr0 hur.le]
  exact pe

/-- the whole breakup formula for a mantissa `m ∈ [1,10]` and an exponent `k` -/
theorem log_breakup_err (hf : f.exact = false) {m : ℚ} {w : Bool} {k : ℤ} (h1 : 1 ≤ m) (h2 : m ≤ 10)
    (hk : |k| ≤ 16384) :
    ∃ r w', log_main (fin m w / i ⌊m⌋ : FV f) + L (log_mantissa_integer ⌊m⌋) + L LOG_10 * i k = fin r w' ∧
      |(r : ℝ) - (Real.log m + k * Real.log 10)| ≤ (15 + 10 * |(k : ℝ)|) * uro f := by
  obtain ⟨s, w2, es, hs⟩ := log_mant_err (f := f) (w := w) hf h1 h2
  obtain ⟨p, w3, ep, pe⟩ := log_exp_err (f := f) hk
  rw [es, ep]
  have hur := uro_pos_real f
  have hur1 := uro_le f
  have kr0 := abs_nonneg (k:ℝ)
  have kq : |(k:ℚ)| ≤ 16384 := by exact_mod_cast hk
  have mr : (1:ℝ) ≤ m := by exact_mod_cast h1
  have mr2 : (m:ℝ) ≤ 10 := by exact_mod_cast h2
  have lm0 : 0 ≤ Real.log m := Real.log_nonneg mr
  have lm1 : Real.log m ≤ 2303 / 1000 := (Real.log_le_log (by linarith) mr2).trans log10_bounds.2
  -- the final sum
  have tot : |((s + p : ℚ) : ℝ) - (Real.log m + k * Real.log 10)| ≤ (1142 / 100 + 693 / 100 * |(k:ℝ)|) * uro f := by
    have e : ((s + p : ℚ) : ℝ) - (Real.log m + k * Real.log 10) = (s - Real.log m) + (p - k * Real.log 10) := by push_cast; ring
    rw [e]
    refine (abs_add_le _ _).trans ((add_le_add hs pe).trans (le_of_eq ?_))
    ring
  have krb : |(k:ℝ)| ≤ 16384 := by exact_mod_cast hk
  have spb : |s + p| ≤ 2305 / 1000 + 2305 / 1000 * |(k:ℚ)| := by
    have : |((s + p : ℚ) : ℝ)| ≤ ((2305 / 1000 + 2305 / 1000 * |(k:ℚ)| : ℚ) : ℝ) := by
      have e : ((s + p : ℚ) : ℝ) = (((s + p : ℚ) : ℝ) - (Real.log m + k * Real.log 10)) + (Real.log m + k * Real.log 10) := by ring
      rw [e]
      refine (abs_add_le _ _).trans ?_
      have a : |Real.log m + k * Real.log 10| ≤ 2303 / 1000 + |(k:ℝ)| * (2303 / 1000) := by
        refine (abs_add_le _ _).trans (add_le_add (by rw [abs_of_nonneg lm0]; exact lm1) ?_)
        rw [abs_mul, abs_of_nonneg (show 0 ≤ Real.log 10 by linarith [log10_bounds.1])]
        exact mul_le_mul_of_nonneg_left log10_bounds.2 kr0
      push_cast at tot ⊢
      have b : (1142 / 100 + 693 / 100 * |(k:ℝ)|) * uro f ≤ (1142 / 100 + 693 / 100 * |(k:ℝ)|) * (1 / 16777216) :=
        mul_le_mul_of_nonneg_left hur1 (by positivity)
      linarith
    exact_mod_cast this
  obtain ⟨w4, h4s⟩ := (is_fin (f := f) s w2).add (is_fin p w3) (nov (by linarith))
  refine ⟨rnd f (s + p), w4, h4s, ?_⟩
  have h4e := rnd_abs (f := f) (by have := abs_nonneg (k:ℚ); linarith) spb
  have h4r := (Rat.cast_le (K := ℝ)).2 h4e
  unfold wro at h4r
  have e : ((rnd f (s + p) : ℚ) : ℝ) - (Real.log m + k * Real.log 10)
      = ((rnd f (s + p) : ℚ) - ((s + p : ℚ) : ℝ)) + (((s + p : ℚ) : ℝ) - (Real.log m + k * Real.log 10)) := by ring
  rw [e]
  push_cast at h4r tot ⊢
  refine (abs_add_le _ _).trans ((add_le_add h4r tot).trans ?_)
  nlinarith [mul_nonneg kr0 hur.le]

theorem log_not_near_one {q : ℚ} {z : Bool} (h : q < 1 / 2 ∨ 3 / 2 < q) (h0 : 0 ≤ q) (hx : Valid (fin q z : FV f)) :
    ¬ (limMin : FV f) > fabs ((fin q z : FV f) - i 1) := by
  have o1 : Is (i 1 : FV f) 1 := by simpa using is_i (f := f) (n := 1) (by norm_num)
  have hov : overflows f (rnd f (q - 1)) = false := by
    rcases h with h | h
    · refine nov (le_trans (b := 1) ?_ (by norm_num))
      rw [abs_le]; constructor <;> linarith
    · refine nov_of_lt hx.rep hx.novf ?_
      rw [abs_of_pos (by linarith), abs_of_pos (by linarith)]; linarith
  have hb : 1 / 2 ≤ |q - 1| := by
    rcases h with h | h
    · rw [abs_of_neg (by linarith)]; linarith
    · rw [abs_of_pos (by linarith)]; linarith
  have hl : Is (limMin : FV f) (minNormal f) := ⟨false, rfl⟩
  have hs := (is_fin (f := f) q z).sub o1 hov
  rw [gt_iff, hs.fabs.lt_iff hl, not_lt, abs_rnd]
  have hr : Rep f (1 / 2) := by
    have := rep_pow2 (f := f) (e := -1) (by rcases f with ⟨⟨⟩, ⟨⟩⟩ <;> decide)
    have e : pow2 (-1) = 1 / 2 := by norm_num [pow2_eq]
    rwa [e] at this
  refine le_trans ?_ (le_rnd_of_rep hr hb)
  have := minNormal_le_uro f
  have := uro_lt_half f
  linarith

/-- C37: for every finite `x ≥ 1` the result is within `(15 + 5 ln x) u` of `ln x`. -/
theorem C37_ge_one (hf : f.exact = false) (q : ℚ) (z : Bool) (hx : Valid (fin q z : FV f)) (h1 : 1 ≤ q) :
    ∃ r w, log (fin q z : FV f) = .ok (fin r w) ∧
      |(r : ℝ) - Real.log q| ≤ (15 + 5 * Real.log q) * (1 / 2 ^ f.prec) := by
  have hq0 : (0:ℝ) < q := by exact_mod_cast (show 0 < q by linarith)
  have hlq : 0 ≤ Real.log q := Real.log_nonneg (by exact_mod_cast h1)
  have hmn : minNormal f ≤ q := by have := minNormal_le_uro f; have := uro_lt_half f; linarith
  have hur := uro_pos_real f
  have hur1 := uro_le f
  rcases le_or_gt q (3 / 2) with h2 | h2
  · obtain ⟨r, w, e1, e2⟩ := C37_direct_range hf q z hx (by linarith) h2
    refine ⟨r, w, e1, e2.trans ?_⟩
    rw [abs_of_nonneg hlq, ← uro_eq]
    nlinarith
  rw [← uro_eq]
  rw [log_normal hmn (log_not_near_one (Or.inr h2) (by linarith) hx), if_pos (Or.inr h2)]
  have hF := recFuel_big
  obtain ⟨m, w, k, θ, a, b, c, d, hn, hm, hk⟩ := split_down (f := f) 16384 q z recFuel recFuel 0 (by omega) (by omega) h1
      hx.novf (le_mul_pow hf (by linarith) hx.novf)
  rw [zero_add] at b
  rw [log_breakup_eq a c d b]
  obtain ⟨r, w', e1, e2⟩ := log_breakup_err (f := f) (w := w) (k := (k:ℤ)) hf c d (by rw [Nat.abs_cast]; exact_mod_cast hk)
  refine ⟨r, w', by rw [e1], ?_⟩
  have hθ := log_near hn
  have hθ0 : (0:ℝ) < θ := by exact_mod_cast near_pos (by have := uro_lt_half f; linarith) hn
  have hlm : Real.log m = Real.log q - k * Real.log 10 + Real.log θ := by
    rw [hm]; push_cast
    rw [Real.log_mul (by positivity) hθ0.ne', Real.log_div hq0.ne' (by positivity), Real.log_pow]
  have lm0 : 0 ≤ Real.log m := Real.log_nonneg (by exact_mod_cast c)
  have k0 : (0:ℝ) ≤ k := Nat.cast_nonneg k
  have hl10 := log10_bounds
  have ht := abs_le.1 hθ
  have hku : (k:ℝ) * uro f ≤ 1 / 1000 * k := by nlinarith
  have hkl : 2300 / 1000 * (k:ℝ) ≤ Real.log q := by nlinarith
  push_cast at e2
  rw [abs_of_nonneg k0] at e2
  have e : (r:ℝ) - Real.log q = (r - (Real.log m + k * Real.log 10)) + Real.log θ := by rw [hlm]; ring
  rw [e]
  refine (abs_add_le _ _).trans ((add_le_add e2 hθ).trans ?_)
  nlinarith

theorem near_bounds {k : ℕ} {θ : ℚ} (h : Near (uro f) k θ) (hk : (k:ℚ) * uro f ≤ 1 / 100000) :
    99998 / 100000 ≤ θ ∧ θ ≤ 100002 / 100000 := by
  have hu := uro_pos f
  have hu1 := uro_lt_half f
  have a := one_add_mul_le_pow (a := -uro f) (by linarith) k
  have e : (1 + -uro f) = 1 - uro f := by ring
  rw [e] at a
  have l : 99999 / 100000 ≤ (1 - uro f) ^ k := by linarith
  refine ⟨by linarith [h.1], h.2.trans ?_⟩
  have p : (1 + uro f) ^ k * (1 - uro f) ^ k ≤ 1 := by
    rw [← mul_pow]; exact pow_le_one₀ (by nlinarith) (by nlinarith)
  have : 0 < (1 + uro f) ^ k := by positivity
  nlinarith

theorem emax_uro (f : Fmt) : ((f.emax.toNat + 1 : ℕ) : ℚ) * uro f ≤ 1 / 100000 := by
  rcases f with ⟨⟨⟩, ⟨⟩⟩ <;> decide +kernel

theorem log_small_real {q m θ : ℚ} {kk : ℕ} {k : ℤ} {r : ℝ} (hq : (0:ℝ) < q) (h1 : (q:ℝ) < 1 / 2)
    (m1 : (1:ℝ) ≤ m) (m2 : (m:ℝ) ≤ 10) (hn : Near (uro f) kk θ) (ht : (99998 / 100000 : ℝ) ≤ θ) (hm : m = q * 10 ^ kk * θ)
    (j1 : (kk:ℤ) + k < 2) (j2 : -2 < (kk:ℤ) + k)
    (e2 : |r - (Real.log m + k * Real.log 10)| ≤ (15 + 10 * |(k : ℝ)|) * uro f) :
    |r - (Real.log q + ((kk + k : ℤ) : ℝ) * Real.log 10)| ≤ (40 + 5 * |Real.log q|) * uro f := by
  have hur := uro_pos_real f
  have hur1 := uro_le f
  have hθ := log_near hn
  have hθ0 : (0:ℝ) < θ := by linarith
  have hlm : Real.log m = Real.log q + kk * Real.log 10 + Real.log θ := by
    rw [hm]; push_cast
    rw [Real.log_mul (by positivity) hθ0.ne', Real.log_mul hq.ne' (by positivity), Real.log_pow]
  have hl10 := log10_bounds
  have lm : Real.log m ≤ Real.log 10 := Real.log_le_log (by linarith) m2
  have lq : Real.log q < 0 := Real.log_neg hq (by linarith)
  have k0 : (0:ℝ) ≤ kk := Nat.cast_nonneg kk
  have ka : |(k:ℝ)| ≤ kk + 1 := by
    have a : (kk:ℝ) + k ≤ 1 := by exact_mod_cast (show (kk:ℤ) + k ≤ 1 by omega)
    have b : (-1:ℝ) ≤ (kk:ℝ) + k := by exact_mod_cast (show -1 ≤ (kk:ℤ) + k by omega)
    rw [abs_le]; constructor <;> linarith
  rw [abs_of_neg lq]
  have htt := abs_le.1 hθ
  have hku : (kk:ℝ) * uro f ≤ 1 / 10000 * kk := by nlinarith
  have hkl : 2301 / 1000 * (kk:ℝ) ≤ 2303 / 1000 - Real.log q := by nlinarith
  push_cast
  have e : r - (Real.log q + (kk + k) * Real.log 10) = (r - (Real.log m + k * Real.log 10)) + Real.log θ := by
    rw [hlm]; ring
  rw [e]
  refine (abs_add_le _ _).trans ((add_le_add e2 hθ).trans ?_)
  have : (15 + 10 * |(k : ℝ)|) + 1001 / 1000 * kk ≤ 40 + 5 * -Real.log q := by linarith
  calc (15 + 10 * |(k : ℝ)|) * (uro f : ℝ) + 1001 / 1000 * (kk * uro f)
      = ((15 + 10 * |(k : ℝ)|) + 1001 / 1000 * kk) * uro f := by ring
    _ ≤ _ := mul_le_mul_of_nonneg_right this hur.le

/-- C37: for every normal `x < 1/2` the result is within `(40 + 5 |ln x|) u` of `ln x + j ln 10` with
`j ∈ {-1, 0, 1}`, and `j = 0` unless `x` is within `1e-4` (relative) of a power of ten. -/
theorem C37_small (hf : f.exact = false) (q : ℚ) (z : Bool) (hx : Valid (fin q z : FV f)) (hmn : minNormal f ≤ q)
    (h1 : q < 1 / 2) :
    ∃ r w, ∃ j : ℤ, log (fin q z : FV f) = .ok (fin r w) ∧
      |(r : ℝ) - (Real.log q + j * Real.log 10)| ≤ (40 + 5 * |Real.log q|) * (1 / 2 ^ f.prec) ∧
      (j = -1 ∨ j = 0 ∨ j = 1) ∧
      ((∀ e : ℤ, 1 / 10000 * (10:ℚ) ^ e < |q - 10 ^ e|) → j = 0) := by
  have hq : 0 < q := lt_of_lt_of_le (minNormal_pos f) hmn
  have hq0 : (0:ℝ) < q := by exact_mod_cast hq
  have hur := uro_pos_real f
  have hur1 := uro_le f
  rw [← uro_eq]
  rw [log_normal hmn (log_not_near_one (Or.inl h1) hq.le hx), if_pos (Or.inl h1)]
  have hF := recFuel_big
  have he : ((f.emax.toNat : ℕ) : ℤ) = f.emax := Int.toNat_of_nonneg (by have := emax_large f; omega)
  have hM : f.emax.toNat ≤ 16384 := by rcases f with ⟨⟨⟩, ⟨⟩⟩ <;> decide
  have hp : 1 ≤ q * 2 ^ f.emax.toNat := by
    have h2 : pow2 (-f.emax) ≤ q := by
      refine le_trans ?_ hmn
      exact pow2_le (by rcases f with ⟨⟨⟩, ⟨⟩⟩ <;> decide)
    rw [← he, pow2_eq, zpow_neg, inv_eq_one_div, div_le_iff₀ (by positivity)] at h2
    exact_mod_cast h2
  have hEu := emax_uro f
  have hu := uro_pos f
  obtain ⟨m, w, kk, θ, a, m1, m2, hn, hm, hkk⟩ := mantissa_up (f := f) f.emax.toNat q z recFuel (by omega) hmn
    (by linarith) hp
  obtain ⟨v, k, l, θ', b, v1, v2, hn', hv, hl⟩ := find_exponent_up (f := f) f.emax.toNat q z recFuel 0 (by omega) hmn
    (by linarith) hp
  rw [zero_add] at b
  obtain ⟨t1, t2⟩ := near_bounds hn (le_trans (mul_le_mul_of_nonneg_right (by exact_mod_cast (by omega)) hu.le) hEu)
  obtain ⟨t1', t2'⟩ := near_bounds hn' (le_trans (mul_le_mul_of_nonneg_right (by exact_mod_cast hl) hu.le) hEu)
  -- 10^(kk+k) = m θ' / (v θ)
  have hten : (10:ℚ) ^ ((kk:ℤ) + k) * (v * θ) = m * θ' := by
    rw [zpow_add₀ (by norm_num), zpow_natCast, hm]
    calc (10:ℚ) ^ kk * 10 ^ k * (v * θ) = 10 ^ kk * θ * (v * 10 ^ k) := by ring
      _ = _ := by rw [← hv]; ring
  have up : (10:ℚ) ^ ((kk:ℤ) + k) < 100 := by
    by_contra hc
    push Not at hc
    have : 100 * (v * θ) ≤ m * θ' := by rw [← hten]; exact mul_le_mul_of_nonneg_right hc (by positivity)
    nlinarith
  have lo : (1 / 100 : ℚ) < 10 ^ ((kk:ℤ) + k) := by
    by_contra hc
    push Not at hc
    have : m * θ' ≤ 1 / 100 * (v * θ) := by rw [← hten]; exact mul_le_mul_of_nonneg_right hc (by positivity)
    nlinarith
  have j1 : (kk:ℤ) + k < 2 := by
    by_contra hc
    push Not at hc
    have := zpow_le_zpow_right₀ (show (1:ℚ) ≤ 10 by norm_num) hc
    norm_num at this; linarith
  have j2 : -2 < (kk:ℤ) + k := by
    by_contra hc
    push Not at hc
    have := zpow_le_zpow_right₀ (show (1:ℚ) ≤ 10 by norm_num) hc
    norm_num at this; linarith
  rw [log_breakup_eq a m1 m2 b]
  have hkk8 : kk ≤ 6000 := by
    by_contra hc
    push Not at hc
    have c1 : (2:ℚ) ^ (f.emax.toNat + 4) ≤ 10 ^ kk := by
      calc (2:ℚ) ^ (f.emax.toNat + 4) ≤ 2 ^ (3 * kk) := pow_le_pow_right₀ (by norm_num) (by omega)
        _ = 8 ^ kk := by rw [pow_mul]; norm_num
        _ ≤ 10 ^ kk := pow_le_pow_left₀ (by norm_num) (by norm_num) kk
    have c2 : 16 ≤ q * 10 ^ kk := by
      calc (16:ℚ) ≤ (q * 2 ^ f.emax.toNat) * 16 := by linarith
        _ = q * 2 ^ (f.emax.toNat + 4) := by rw [pow_add]; norm_num [mul_assoc]
        _ ≤ _ := mul_le_mul_of_nonneg_left c1 hq.le
    rw [hm] at m2
    have := mul_le_mul c2 t1 (by norm_num) (by linarith)
    linarith
  obtain ⟨r, w', e1, e2⟩ := log_breakup_err (f := f) (w := w) (k := k) hf m1 m2 (by rw [abs_le]; omega)
  refine ⟨r, w', kk + k, by rw [e1], ?_, by omega, ?_⟩
  · exact log_small_real hq0 (by have := (Rat.cast_lt (K := ℝ)).2 h1; push_cast at this; exact this) (by exact_mod_cast m1) (by exact_mod_cast m2) hn
      (by have := (Rat.cast_le (K := ℝ)).2 t1; push_cast at this; exact this) hm
      (by omega) (by omega) e2
  · intro hne
    rcases (by omega : (kk:ℤ) + k = -1 ∨ (kk:ℤ) + k = 0 ∨ (kk:ℤ) + k = 1) with hj | hj | hj
    · exfalso
      have hne := hne (-kk)
      rw [hj] at hten
      norm_num at hten
      have p1 : (0:ℚ) < 10 ^ kk := by positivity
      rw [zpow_neg, zpow_natCast] at hne
      have e : (q - ((10:ℚ) ^ kk)⁻¹) = ((10:ℚ) ^ kk)⁻¹ * (q * 10 ^ kk - 1) := by field_simp
      rw [e, abs_mul, abs_of_pos (by positivity), mul_comm, mul_lt_mul_iff_right₀ (by positivity)] at hne
      refine absurd hne (not_lt.2 ?_)
      have hw : q * 10 ^ kk * θ = m := hm.symm
      generalize q * 10 ^ kk = X at *
      rw [abs_le]; constructor <;> nlinarith
    · exact hj
    · exfalso
      have hne := hne k
      rw [hj] at hten
      norm_num at hten
      have p1 : (0:ℚ) < 10 ^ k := by positivity
      have e : q - 10 ^ k = 10 ^ k * (q / 10 ^ k - 1) := by field_simp
      rw [e, abs_mul, abs_of_pos p1, mul_comm, mul_lt_mul_iff_right₀ p1] at hne
      refine absurd hne (not_lt.2 ?_)
      have hw : q / 10 ^ k * θ' = v := by field_simp; rw [hv]; ring
      generalize q / 10 ^ k = X at *
      rw [abs_le]; constructor <;> nlinarith

/-- the largest `double`: about `709.78` -/
example : ∃ r w, log (fin ((2 ^ 53 - 1) * 2 ^ 971) false : FV binary64) = .ok (fin r w) ∧
    |(r : ℝ) - Real.log ((2 ^ 53 - 1) * 2 ^ 971 : ℚ)| ≤
      (15 + 5 * Real.log ((2 ^ 53 - 1) * 2 ^ 971 : ℚ)) * (1 / 2 ^ 53) :=
  C37_ge_one (f := binary64) rfl _ false (by decide +kernel) (by decide +kernel)

/-- a value next to `1`, where the relative bound matters -/
example : ∃ r w, log (fin (1 + 1 / 2 ^ 52) false : FV binary64) = .ok (fin r w) ∧
    |(r : ℝ) - Real.log (1 + 1 / 2 ^ 52 : ℚ)| ≤ 5 * (1 / 2 ^ 53) * |Real.log (1 + 1 / 2 ^ 52 : ℚ)| :=
  C37_direct_range (f := binary64) rfl _ false (by decide +kernel) (by norm_num) (by norm_num)

/-- `3/1024` is not near a power of ten, so its logarithm is right -/
example : ∃ r w, log (fin (3 / 1024) false : FV binary64) = .ok (fin r w) ∧
    |(r : ℝ) - Real.log (3 / 1024 : ℚ)| ≤ (40 + 5 * |Real.log (3 / 1024 : ℚ)|) * (1 / 2 ^ 53) := by
  obtain ⟨r, w, j, e, h, -, h0⟩ := C37_small (f := binary64) rfl (3 / 1024) false (by decide +kernel)
    (by decide +kernel) (by norm_num)
  have hj : j = 0 := by
    apply h0
    intro e
    rcases le_or_gt e (-3) with he | he
    · have := zpow_le_zpow_right₀ (show (1:ℚ) ≤ 10 by norm_num) he
      norm_num at this
      rw [lt_abs]; left; linarith
    · have := zpow_le_zpow_right₀ (show (1:ℚ) ≤ 10 by norm_num) (show (-2:ℤ) ≤ e by omega)
      norm_num at this
      rw [lt_abs]; right; linarith
  subst hj
  refine ⟨r, w, e, ?_⟩
  have e0 : ((0:ℤ):ℝ) * Real.log 10 = 0 := by norm_num
  rw [e0, add_zero] at h
  exact h

end Gcem.Props
