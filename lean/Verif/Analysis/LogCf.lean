import Verif.Fp.Err
import Verif.Model.Elem
import Verif.Analysis.LogReal
import Verif.Analysis.LogSplit

/-!
# Rounding error of the continued fraction of the logarithm
-/

namespace Gcem
open FV
variable {f : Fmt}

/-! ## Signed relative errors -/

/-- `r` is within relative error `ε` of `y` -/
def RelS (r y ε : ℝ) : Prop := |r - y| ≤ ε * |y|

theorem RelS.mono {r y ε ε' : ℝ} (h : RelS r y ε) (he : ε ≤ ε') : RelS r y ε' :=
  le_trans h (mul_le_mul_of_nonneg_right he (abs_nonneg _))

theorem RelS.refl (y : ℝ) : RelS y y 0 := by simp [RelS]

theorem RelS.trans {r y w a b : ℝ} (h : RelS r y a) (h' : RelS y w b) (ha : 0 ≤ a) :
    RelS r w (a + b + a * b) := by
  unfold RelS at *
  have e : r - w = (r - y) + (y - w) := by ring
  have hy : |y| ≤ |w| + b * |w| := by
    have e : y = w + (y - w) := by ring
    calc |y| = |w + (y - w)| := by rw [← e]
      _ ≤ _ := (abs_add_le _ _).trans (add_le_add_right h' _)
  rw [e]
  calc _ ≤ a * |y| + b * |w| := (abs_add_le _ _).trans (add_le_add h h')
    _ ≤ a * (|w| + b * |w|) + b * |w| := by gcongr
    _ = _ := by ring

theorem RelS.mul {r r' y y' a b : ℝ} (h : RelS r y a) (h' : RelS r' y' b) (ha : 0 ≤ a) :
    RelS (r * r') (y * y') (a + b + a * b) := by
  unfold RelS at *
  have e : r * r' - y * y' = (r - y) * y' + y * (r' - y') + (r - y) * (r' - y') := by ring
  rw [e, abs_mul]
  have m1 : |(r - y) * y'| ≤ a * |y| * |y'| := by rw [abs_mul]; exact mul_le_mul_of_nonneg_right h (abs_nonneg _)
  have m2 : |y * (r' - y')| ≤ |y| * (b * |y'|) := by rw [abs_mul]; exact mul_le_mul_of_nonneg_left h' (abs_nonneg _)
  have m3 : |(r - y) * (r' - y')| ≤ a * |y| * (b * |y'|) := by
    rw [abs_mul]; exact mul_le_mul h h' (abs_nonneg _) (by positivity)
  refine (abs_add_le _ _).trans ((add_le_add ((abs_add_le _ _).trans (add_le_add m1 m2)) m3).trans (le_of_eq ?_))
  ring

theorem relS_rnd {q : ℚ} (h : minNormal f ≤ |q|) : RelS ((rnd f q : ℚ) : ℝ) q (uro f) := by
  obtain ⟨δ, h1, h2⟩ := rnd_rel h
  unfold RelS
  rw [h2, show (q : ℝ) * (1 + δ) - q = δ * q by ring, abs_mul]
  exact mul_le_mul_of_nonneg_right h1 (abs_nonneg _)

/-! ## Exact subtraction near one, exact doubling -/

theorem sub_one_scaled {q : ℚ} (hf : f.exact = false) (hr : Rep f q) (h1 : 1 / 2 ≤ q) (h2 : q ≤ 2) :
    ∃ m : ℤ, q - 1 = m * pow2 (-f.prec) ∧ |m| ≤ 2 ^ f.prec := by
  have hq : q ≠ 0 := by linarith
  obtain ⟨m, hm, -⟩ := rep_scaled hf hq hr
  have hl : -1 ≤ ilog2 q := by
    rw [le_ilog2_iff hq, abs_of_pos (by linarith)]
    have : pow2 (-1) = 1 / 2 := by norm_num [pow2_eq]
    linarith
  have he : -(f.prec : ℤ) ≤ fexp f q := by unfold fexp; omega
  obtain ⟨k, -, hk⟩ := pow2_mult he
  have hp : pow2 (-f.prec) * 2 ^ f.prec = 1 := by rw [← pow2_nat, ← pow2_add]; simp [pow2_eq]
  have e : q - 1 = ((m * k - 2 ^ f.prec : ℤ) : ℚ) * pow2 (-f.prec) := by
    push_cast
    rw [sub_mul, mul_assoc, ← hk, ← hm, mul_comm ((2:ℚ) ^ f.prec), hp]
  refine ⟨_, e, ?_⟩
  have hpos := pow2_pos (-f.prec)
  have h3 : |q - 1| ≤ 1 := by rw [abs_le]; constructor <;> linarith
  rw [e, abs_mul, abs_of_pos hpos, ← hp, mul_comm] at h3
  have := le_of_mul_le_mul_left h3 hpos
  exact_mod_cast this

theorem emin_le_prec (f : Fmt) : f.emin ≤ -f.prec := by rcases f with ⟨⟨⟩, ⟨⟩⟩ <;> decide

theorem rep_sub_one {q : ℚ} (hf : f.exact = false) (hr : Rep f q) (h1 : 1 / 2 ≤ q) (h2 : q ≤ 2) : Rep f (q - 1) := by
  obtain ⟨m, hm, hb⟩ := sub_one_scaled hf hr h1 h2
  rw [hm]; exact rep_of_scaled hb (emin_le_prec f)

theorem sub_one_ge {q : ℚ} (hf : f.exact = false) (hr : Rep f q) (h1 : 1 / 2 ≤ q) (h2 : q ≤ 2) (hne : q ≠ 1) :
    uro f ≤ |q - 1| := by
  obtain ⟨m, hm, -⟩ := sub_one_scaled hf hr h1 h2
  have hpos := pow2_pos (-f.prec)
  have hm0 : m ≠ 0 := by
    rintro rfl
    simp at hm
    exact hne (by linarith)
  have : (1:ℚ) ≤ |(m:ℚ)| := by exact_mod_cast Int.one_le_abs hm0
  rw [hm, abs_mul, abs_of_pos hpos]
  unfold uro
  nlinarith

theorem rep_double {q : ℚ} (hr : Rep f q) : Rep f (2 * q) := by
  cases hf : f.exact
  swap
  · exact rep_of_exact hf _
  by_cases hq : q = 0
  · subst hq; simpa using Rep.zero
  obtain ⟨m, hm, hb⟩ := rep_scaled hf hq hr
  have e : 2 * q = m * pow2 (fexp f q + 1) := by
    rw [pow2_add, ← mul_assoc, ← hm]; norm_num [pow2_eq]; ring
  rw [e]
  exact rep_of_scaled hb.le (by have := fexp_ge f q; omega)

/-! ## The loop -/

theorem log_step_err {s T : ℚ} {D : ℕ} {xx v : FV f} (hD : 1 ≤ D) (hD' : D ≤ 24)
    (hx : Ap xx s (1 / 8)) (hs0 : 0 ≤ s) (hs : s ≤ 1 / 8)
    (hv : Ap v T (61 / 50 * (2 * D + 1))) (hT : 9 / 10 * (2 * (D:ℚ) + 1) ≤ T) :
    Ap (log_cf_step xx D v) (2 * D - 1 - sqC D * s / T) (61 / 50 * (2 * D - 1)) := by
  have d1 : (1:ℚ) ≤ D := by exact_mod_cast hD
  have d2 : (D:ℚ) ≤ 24 := by exact_mod_cast hD'
  have i1 : Is (i (2 * (D : ℤ) - 1) : FV f) (2 * (D : ℚ) - 1) := by
    have := is_i (f := f) (n := 2 * (D : ℤ) - 1) (by rw [abs_le]; constructor <;> omega)
    push_cast at this; exact this
  have i2 : Is (i ((D : ℤ) * D) : FV f) (sqC D) := by
    have := is_i (f := f) (n := (D : ℤ) * D) (by rw [abs_le]; constructor <;> nlinarith)
    push_cast at this
    rw [show (sqC D : ℚ) = D * D by simp [sqC]; ring]; exact this
  have c1 : (1:ℚ) ≤ sqC D := by simp only [sqC]; nlinarith
  have c2 : (sqC D : ℚ) ≤ 576 := by simp only [sqC]; nlinarith
  have c3 : (sqC D : ℚ) ≤ (2 * D - 1) * (2 * D + 1) / 3 := by simp only [sqC]; nlinarith
  have cp : (0:ℚ) ≤ sqC D := by linarith
  have s1 : Ap (i ((D : ℤ) * D) * xx : FV f) (sqC D * s) (sqC D * (1 / 4) + 1 / 10 ^ 4) :=
    i2.ap.mul hx (P := sqC D) (Q := 1 / 8) (C := sqC D * (1 / 8)) (by rw [abs_of_nonneg cp])
      (by rw [abs_of_nonneg hs0]; exact hs) (by linarith) (by linarith) (by linarith) (by linarith) (by linarith)
  have Tp : 0 < T := by linarith
  have hq0 : 0 ≤ sqC D * s / T := div_nonneg (mul_nonneg cp hs0) Tp.le
  have hq1 : sqC D * s / T ≤ (2 * D - 1) / 21 := by
    rw [div_le_iff₀ Tp]
    have a : sqC D * s ≤ sqC D * (1 / 8) := mul_le_mul_of_nonneg_left hs cp
    have b : (2 * (D:ℚ) - 1) / 21 * (9 / 10 * (2 * D + 1)) ≤ (2 * D - 1) / 21 * T :=
      mul_le_mul_of_nonneg_left hT (by linarith)
    nlinarith
  have s2 : Ap (i ((D : ℤ) * D) * xx / v : FV f) (sqC D * s / T) (208 / 1000 * (2 * D - 1)) := by
    refine s1.div hv (ρ := 899 / 1000 * (2 * D + 1)) (B := (2 * D - 1) / 21) (C := 159 / 1000 * (2 * D - 1))
      (by linarith) ?_ (by rw [abs_of_nonneg hq0]; exact hq1) (by linarith) (by linarith) ?_ (by linarith) (by linarith)
    · rw [abs_of_pos Tp]; linarith
    · rw [div_le_iff₀ (by linarith)]
      nlinarith
  have hr : |2 * (D:ℚ) - 1 - sqC D * s / T| ≤ 2 * D - 1 := by rw [abs_le]; constructor <;> linarith
  exact i1.ap.sub s2 hr (by linarith) (by linarith) (by linarith) (by linarith)

theorem log_cf_err {s : ℚ} {xx : FV f} (hx : Ap xx s (1 / 8)) (hs0 : 0 ≤ s) (hs : s ≤ 1 / 8) :
    Ap (log_cf_main xx 1) (cfT sqC s 24 1) (61 / 50) := by
  unfold log_cf_main
  have := whileDown_inv (log_cf_step xx) 0
    (fun d v => d ≤ 24 ∧ Ap v (cfT sqC s (24 - d) (d + 1)) (61 / 50 * (2 * d + 1))) ?_ 24
    (i (2 * 25 - 1)) (by norm_num) ⟨le_rfl, ?_⟩
  · have h := this.2
    norm_num at h
    exact h
  · rintro d v - ⟨hd, hv⟩
    refine ⟨by omega, ?_⟩
    have e : 24 - d = (24 - (d + 1)) + 1 := by omega
    have hT := logT_ge s hs0 (by linarith) (24 - (d + 1)) (d + 1 + 1) (by omega)
    rw [e, cfT]
    generalize cfT sqC s (24 - (d + 1)) (d + 1 + 1) = T at *
    have h := log_step_err (D := d + 1) (by omega) hd hx hs0 hs hv (by push_cast at hT ⊢; linarith [hT.1])
    refine h.mono (le_of_eq ?_)
    push_cast; ring
  · have : Is (i (2 * 25 - 1) : FV f) 49 := by simpa using is_i (f := f) (n := 49) (by norm_num)
    have h := this.ap.mono (show (0:ℚ) ≤ 61 / 50 * (2 * (24:ℕ) + 1) by norm_num)
    have e : cfT (sqC : ℕ → ℚ) s (24 - 24) (24 + 1) = 49 := by norm_num [cfT]
    rw [e]; exact h

theorem log_T1_ge {K : Type*} [Field K] [LinearOrder K] [IsStrictOrderedRing K] (s : K) (h0 : 0 ≤ s) (h1 : s ≤ 1 / 8) :
    953 / 1000 ≤ cfT sqC s 24 1 ∧ cfT sqC s 24 1 ≤ 1 := by
  have h := logT_ge s h0 (by linarith) 23 2 (by norm_num)
  have e : cfT sqC s 24 1 = 2 * ((1:ℕ):K) - 1 - sqC 1 * s / cfT sqC s 23 2 := rfl
  have c : (sqC 1 : K) = 1 := by simp [sqC]
  rw [e, c, one_mul]
  norm_num at h
  generalize cfT sqC s 23 2 = T at *
  have tp : 0 < T := by linarith [h.1]
  have a : s / T ≤ 47 / 1000 := by rw [div_le_iff₀ tp]; linarith [h.1]
  have b : 0 ≤ s / T := div_nonneg h0 tp.le
  norm_num
  constructor <;> linarith

end Gcem
