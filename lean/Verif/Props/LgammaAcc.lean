import Verif.Props.LgammaTerm

/-!
# C72: accuracy of lgamma
-/

namespace Gcem.Props
open Gcem FV
variable {f : Fmt}

theorem log117 : Real.log 117 ≤ 477 / 100 := by
  rw [Real.log_le_iff_le_exp (by norm_num)]
  have e : Real.exp (477 / 100) = Real.exp 1 ^ 4 * Real.exp (77 / 100) := by
    rw [← Real.exp_nat_mul, ← Real.exp_add]; norm_num
  rw [e]
  have h1 := Real.exp_one_gt_d9
  have h2 : (2155 / 1000 : ℝ) ≤ Real.exp (77 / 100) := by
    have := Real.sum_le_exp_of_nonneg (show (0:ℝ) ≤ 77 / 100 by norm_num) 6
    simp [Finset.sum_range_succ, Nat.factorial] at this
    norm_num at this ⊢
    linarith
  have h3 : (2.7182818283 : ℝ) ^ 4 ≤ Real.exp 1 ^ 4 := pow_le_pow_left₀ (by norm_num) h1.le 4
  have := mul_le_mul h3 h2 (by norm_num) (by positivity)
  refine le_trans (by norm_num) this

theorem le_log_aux {x : ℝ} (hx : 474 / 100 ≤ x) : 155 / 100 ≤ Real.log x := by
  rw [Real.le_log_iff_exp_le (by linarith)]
  refine le_trans ?_ hx
  have e : Real.exp (155 / 100) = Real.exp 1 * Real.exp (55 / 100) := by rw [← Real.exp_add]; norm_num
  rw [e]
  have h1 := Real.exp_one_lt_d9
  have h2 : Real.exp (55 / 100) ≤ 174 / 100 := by
    have := Real.exp_bound' (x := 55 / 100) (by norm_num) (by norm_num) (n := 5) (by norm_num)
    simp [Finset.sum_range_succ, Nat.factorial] at this
    norm_num at this ⊢
    linarith
  have := mul_le_mul h1.le h2 (Real.exp_pos _).le (by norm_num)
  norm_num at this ⊢
  linarith

/-- the error expression of `lgamma_begin` from `1/2` up -/
theorem lg_coef {Z : ℝ} (hZ : 1 / 2 ≤ Z) :
    |Z - 1 / 2| * (163 / 10 + 94 / 10 * Real.log (Z + 543 / 128)) + 305 / 100 * (Z + 543 / 128) + 612 / 10
      + 72 / 10 * |Real.log (Lan.lanA Z)| ≤ 1106 / 10 + (Z - 1 / 2) * (1935 / 100 + 94 / 10 * Real.log (Z + 543 / 128)) := by
  have hα : |Real.log (Lan.lanA Z)| ≤ 478 / 100 := by
    refine (Lan.abs_log_lanA (by linarith)).trans ?_
    have h1 : Real.log (1 + 58 / Z) ≤ Real.log 117 := by
      refine Real.log_le_log (by positivity) ?_
      have : 58 / Z ≤ 116 := by rw [div_le_iff₀ (by linarith)]; linarith
      linarith
    have := log117
    norm_num
    linarith
  rw [abs_of_nonneg (show 0 ≤ Z - 1 / 2 by linarith)]
  nlinarith

theorem lg_not_one {q : ℚ} (hf : f.exact = false) (hr : Rep f q) (hq1 : q ≠ 1) : minNormal f ≤ |rnd f (q - 1)| := by
  have hm := minNormal_le' f
  have rh : Rep f (1 / 2) := by
    have := rep_of_scaled (f := f) (m := 1) (e := -1) (by have := two_pow_prec f; simp; omega)
      (by rcases f with ⟨⟨⟩, ⟨⟩⟩ <;> decide)
    rwa [show ((1 : ℤ) : ℚ) * pow2 (-1) = 1/2 by norm_num [pow2_eq]] at this
  have far : 1 / 2 ≤ |q - 1| → minNormal f ≤ |rnd f (q - 1)| := by
    intro h
    rw [abs_rnd]
    exact le_trans (hm.trans (by norm_num)) (le_rnd_of_rep rh h)
  rcases lt_or_ge q (1/2) with h | h
  · exact far (by rw [abs_of_neg (by linarith)]; linarith)
  rcases lt_or_ge 2 q with h2 | h2
  · exact far (by rw [abs_of_pos (by linarith)]; linarith)
  rw [show rnd f (q - 1) = q - 1 from rep_sub_one hf hr h h2]
  have := sub_one_ge hf hr h h2 hq1
  have := minNormal_le_uro f
  have := uro_pos f
  linarith

/-- away from one, `lgamma` is `lgamma_begin` at the rounded `x - 1` -/
theorem lg_check_begin (hf : f.exact = false) {q : ℚ} {z : Bool} (hx : Valid (fin q z : FV f)) (h1 : minNormal f ≤ q) (hq1 : q ≠ 1)
    (h2 : q ≤ 2 ^ 90) :
    ∃ v : FV f, Is v (rnd f (q - 1)) ∧ lgamma (fin q z : FV f) = lgamma_begin v := by
  have hq0 : 0 < q := lt_of_lt_of_le (minNormal_pos f) h1
  refine ⟨(fin q z : FV f) - i 1, ?_, ?_⟩
  · refine (is_fin q z).sub (is_i (n := 1) (by decide)) ?_
    exact nov (by rw [abs_le]; constructor <;> norm_num at h2 ⊢ <;> linarith)
  · unfold lgamma lgamma_check
    rw [if_neg (by simp), if_neg, if_neg]
    · unfold limMin; change ¬ (_ < _); simp; exact h1
    · rw [i_one, fin_sub]
      intro hc
      have := lg_not_one hf hx.rep hq1
      linarith [tiny_mk hc]

theorem lg_z {q : ℚ} (hr : Rep f q) (h1 : 2 < q) :
    1 ≤ rnd f (q - 1) ∧ rnd f (q - 1) ≤ q ∧ |rnd f (q - 1) + 1 - q| ≤ uro f * q := by
  refine ⟨le_rnd_of_rep (rep_int (n := 1) (by have := two_pow_prec f; simp; omega)) (by linarith),
    rnd_le_of_rep hr (by linarith), ?_⟩
  have := rnd_err_rel (f := f) (q := q - 1) (by
    rw [abs_of_pos (by linarith)]; exact (minNormal_le' f).trans (le_trans (by norm_num) (show (1:ℚ) ≤ q - 1 by linarith)))
  rw [abs_of_pos (show 0 < q - 1 by linarith)] at this
  rw [show rnd f (q - 1) + 1 - q = rnd f (q - 1) - (q - 1) by ring]
  nlinarith [uro_pos f]

/-- C72: error of `lgamma` from one half up. -/
theorem C72_accuracy (hf : f.exact = false) (q : ℚ) (z : Bool) (hx : Valid (fin q z : FV f)) (h1 : 1 / 2 ≤ q) (h2 : q ≤ 2 ^ 90) :
    ∃ r w, lgamma (fin q z : FV f) = .ok (fin r w) ∧
      |(r:ℝ) - Real.log (Real.Gamma q)| ≤ (111 + 22 * q * Real.log (q + 6)) / 2 ^ f.prec + 18 / 10 ^ 15 := by
  have hu := uro_pos_real f
  have hu7 := uro7_real f
  have hq : (1 / 2 : ℝ) ≤ q := by have := (Rat.cast_le (K := ℝ)).2 h1; push_cast at this; exact this
  have hL6 : 155 / 100 ≤ Real.log ((q:ℝ) + 6) := le_log_aux (by linarith)
  have hq0 : (0:ℝ) ≤ q := by linarith
  have hnn : 0 ≤ 22 * (q:ℝ) * Real.log (q + 6) := by
    have : 0 ≤ Real.log ((q:ℝ) + 6) := by linarith
    positivity
  rw [div_eq_mul_one_div _ ((2:ℝ) ^ f.prec), ← uro_eq]
  rcases eq_or_ne q 1 with rfl | hq1
  · refine ⟨0, false, lgamma_one z, ?_⟩
    have e : ((0:ℚ):ℝ) - Real.log (Real.Gamma ((1:ℚ):ℝ)) = 0 := by simp
    rw [e, abs_zero]
    positivity
  obtain ⟨v, iv, ev⟩ := lg_check_begin hf hx ((minNormal_le' f).trans (le_trans (by norm_num) h1)) hq1 h2
  rw [ev]
  have hb1 : (1:ℚ) / 2 ^ 70 ≤ rnd f (q - 1) + 1 := by
    rcases le_or_gt q 2 with h | h
    · rw [show rnd f (q - 1) = q - 1 from rep_sub_one hf hx.rep h1 h, sub_add_cancel]
      exact le_trans (by norm_num) h1
    · have := (lg_z hx.rep h).1
      refine le_trans (by norm_num) (show (2:ℚ) ≤ _ by linarith)
  have hb2 : rnd f (q - 1) ≤ 2 ^ 90 := (rnd_le_of_rep hx.rep (by linarith)).trans h2
  obtain ⟨r, w, er, br⟩ := lg_begin hf iv (rep_rnd f _) hb1 hb2
  refine ⟨r, w, er, ?_⟩
  have hZp : (0:ℝ) < ((rnd f (q - 1) : ℚ) : ℝ) + 1 := by
    have := (Rat.cast_le (K := ℝ)).2 hb1
    push_cast at this
    exact lt_of_lt_of_le (by positivity) this
  have hlan := Lan.lanczos_all hZp
  have ez1 : ((rnd f (q - 1) : ℚ) : ℝ) + 1 / 2 = (((rnd f (q - 1) : ℚ) : ℝ) + 1) - 1 / 2 := by ring
  have ez2 : ((rnd f (q - 1) : ℚ) : ℝ) + 671 / 128 = (((rnd f (q - 1) : ℚ) : ℝ) + 1) + 543 / 128 := by ring
  rw [ez1, ez2] at br
  rcases le_or_gt q 2 with h | h
  · have eZ : ((rnd f (q - 1) : ℚ) : ℝ) + 1 = q := by
      rw [show rnd f (q - 1) = q - 1 from rep_sub_one hf hx.rep h1 h]; push_cast; ring
    rw [eZ] at br hlan
    have hc := lg_coef hq
    have hΛ : Real.log ((q:ℝ) + 543 / 128) ≤ Real.log (q + 6) := Real.log_le_log (by linarith) (by linarith)
    have hT : 1106 / 10 + ((q:ℝ) - 1 / 2) * (1935 / 100 + 94 / 10 * Real.log (q + 543 / 128)) ≤ 111 + 22 * q * Real.log (q + 6) := by
      have : ((q:ℝ) - 1 / 2) * (1935 / 100 + 94 / 10 * Real.log (q + 543 / 128)) ≤ q * (22 * Real.log (q + 6)) :=
        mul_le_mul (by linarith) (by linarith) (by have := le_log_aux (show 474 / 100 ≤ (q:ℝ) + 543 / 128 by linarith); linarith) (by linarith)
      linarith
    have h3 := abs_add_le ((r:ℝ) - Lan.lanL q) (Lan.lanL q - Real.log (Real.Gamma q))
    rw [sub_add_sub_cancel] at h3
    have h4 := mul_le_mul_of_nonneg_right (hc.trans hT) hu.le
    linarith
  · obtain ⟨z1, z2, z3⟩ := lg_z hx.rep h
    have hq2 : (2:ℝ) < q := by exact_mod_cast h
    have z1' : (2:ℝ) ≤ ((rnd f (q - 1) : ℚ) : ℝ) + 1 := by
      have := (Rat.cast_le (K := ℝ)).2 z1; push_cast at this; linarith
    have z2' : ((rnd f (q - 1) : ℚ) : ℝ) + 1 ≤ q + 1 := by
      have := (Rat.cast_le (K := ℝ)).2 z2; linarith
    have z3' : |((rnd f (q - 1) : ℚ) : ℝ) + 1 - q| ≤ uro f * q := by
      have := (Rat.cast_le (K := ℝ)).2 z3; push_cast at this; exact this
    generalize ((rnd f (q - 1) : ℚ) : ℝ) + 1 = Z at *
    have hc := lg_coef (show 1 / 2 ≤ Z by linarith)
    have hΛ : Real.log (Z + 543 / 128) ≤ Real.log (q + 6) := Real.log_le_log (by linarith) (by linarith)
    have hΛ2 : Real.log (q + 1 : ℝ) ≤ Real.log (q + 6) := Real.log_le_log (by linarith) (by linarith)
    have hL8 : 205 / 100 ≤ Real.log ((q:ℝ) + 6) := by
      have h8 : Real.log 8 = 3 * Real.log 2 := by rw [← Real.log_rpow (by norm_num)]; norm_num
      have := Real.log_two_gt_d9
      have := Real.log_le_log (by norm_num : (0:ℝ) < 8) (show (8:ℝ) ≤ q + 6 by linarith)
      linarith
    have hΓ : |Real.log (Real.Gamma Z) - Real.log (Real.Gamma q)| ≤ uro f * q * Real.log (q + 6) := by
      have b := abs_le.1 z3'
      rcases le_total Z q with hZ | hZ
      · have hl := Lan.lg_up z1' hZ
        rw [abs_sub_comm, abs_of_nonneg hl.1]
        refine hl.2.trans ?_
        have : Real.log (q:ℝ) ≤ Real.log (q + 6) := Real.log_le_log (by linarith) (by linarith)
        exact mul_le_mul (by linarith) this (Real.log_nonneg (by linarith)) (by positivity)
      · have hl := Lan.lg_up hq2.le hZ
        rw [abs_of_nonneg hl.1]
        refine hl.2.trans ?_
        have : Real.log Z ≤ Real.log (q + 6) := Real.log_le_log (by linarith) (by linarith)
        exact mul_le_mul (by linarith) this (Real.log_nonneg (by linarith)) (by positivity)
    have hT : 1106 / 10 + (Z - 1 / 2) * (1935 / 100 + 94 / 10 * Real.log (Z + 543 / 128)) ≤ 111 + 21 * q * Real.log (q + 6) := by
      have hZq : Z - 1 / 2 ≤ (1 + 1 / 10 ^ 7) * q := by
        have b := abs_le.1 z3'
        have := mul_le_mul_of_nonneg_right hu7 (show (0:ℝ) ≤ q by linarith)
        linarith
      have : (Z - 1 / 2) * (1935 / 100 + 94 / 10 * Real.log (Z + 543 / 128)) ≤ ((1 + 1 / 10 ^ 7) * q) * (20 * Real.log (q + 6)) :=
        mul_le_mul hZq (by linarith) (by have := le_log_aux (show 474 / 100 ≤ Z + 543 / 128 by linarith); linarith) (by positivity)
      norm_num only at this ⊢
      linarith
    have h3 := abs_add_le ((r:ℝ) - Lan.lanL Z) (Lan.lanL Z - Real.log (Real.Gamma Z))
    rw [sub_add_sub_cancel] at h3
    have h3' := abs_add_le ((r:ℝ) - Real.log (Real.Gamma Z)) (Real.log (Real.Gamma Z) - Real.log (Real.Gamma q))
    rw [sub_add_sub_cancel] at h3'
    have h4 := mul_le_mul_of_nonneg_right (hc.trans hT) hu.le
    linarith

theorem lg_coef_small {Z : ℝ} (h0 : 0 < Z) (hZ : Z ≤ 501 / 1000) :
    |Z - 1 / 2| * (163 / 10 + 94 / 10 * Real.log (Z + 543 / 128)) + 305 / 100 * (Z + 543 / 128) + 612 / 10
      + 72 / 10 * |Real.log (Lan.lanA Z)| ≤ 1207 / 10 + 72 / 10 * Real.log (1 / Z) := by
  have hα : |Real.log (Lan.lanA Z)| ≤ 408 / 100 + Real.log (1 / Z) := by
    refine (Lan.abs_log_lanA h0).trans ?_
    have h1 : Real.log (1 + 58 / Z) ≤ Real.log (58501 / 1000) + Real.log (1 / Z) := by
      rw [← Real.log_mul (by norm_num) (by positivity)]
      refine Real.log_le_log (by positivity) ?_
      rw [mul_one_div, ← sub_nonneg]
      have : 58501 / 1000 / Z - (1 + 58 / Z) = (501 / 1000 - Z) / Z := by field_simp; ring
      rw [this]
      exact div_nonneg (by linarith) h0.le
    have h2 : Real.log (58501 / 1000) ≤ 4079 / 1000 := by
      have a1 := log117
      have a2 := Real.log_two_gt_d9
      have : Real.log (58501 / 1000) ≤ Real.log 117 - Real.log 2 + 1 / 1000 := by
        rw [← Real.log_div (by norm_num) (by norm_num)]
        have e : (58501 / 1000 : ℝ) = (117 / 2) * (58501 / 58500) := by norm_num
        rw [e, Real.log_mul (by norm_num) (by norm_num)]
        have := Real.log_le_sub_one_of_pos (show (0:ℝ) < 58501 / 58500 by norm_num)
        norm_num at this ⊢
        linarith
      linarith
    norm_num
    norm_num at h1 h2
    linarith
  have hΛ : Real.log (Z + 543 / 128) ≤ 157 / 100 := by
    have : Real.log (Z + 543 / 128) ≤ Real.log 4.8 := Real.log_le_log (by positivity) (by norm_num; linarith)
    refine this.trans ?_
    have e : (4.8 : ℝ) = 2 * 2 * (6 / 5) := by norm_num
    rw [e, Real.log_mul (by norm_num) (by norm_num), Real.log_mul (by norm_num) (by norm_num)]
    have := Real.log_two_lt_d9
    have h6 : Real.log (6 / 5) ≤ 183 / 1000 := by
      rw [Real.log_le_iff_le_exp (by norm_num)]
      have := Real.sum_le_exp_of_nonneg (show (0:ℝ) ≤ 183 / 1000 by norm_num) 5
      simp [Finset.sum_range_succ, Nat.factorial] at this
      norm_num at this ⊢
      linarith
    linarith
  have hS : |Z - 1 / 2| ≤ 1 / 2 := by rw [abs_le]; constructor <;> linarith
  have h3 : |Z - 1 / 2| * (163 / 10 + 94 / 10 * Real.log (Z + 543 / 128)) ≤ 1 / 2 * (163 / 10 + 94 / 10 * (157 / 100)) :=
    mul_le_mul hS (by linarith) (by have : 0 ≤ Real.log (Z + 543 / 128) := Real.log_nonneg (by linarith)
                                    positivity) (by norm_num)
  norm_num at h3 ⊢
  norm_num at hα
  linarith

/-- C72: below one half the rounding of `x - 1` adds an error of the order of `u / x`. -/
theorem C72_small (hf : f.exact = false) (q : ℚ) (z : Bool) (hx : Valid (fin q z : FV f)) (h1 : 4 / 2 ^ f.prec ≤ q) (h2 : q < 1 / 2) :
    ∃ r w, lgamma (fin q z : FV f) = .ok (fin r w) ∧
      |(r:ℝ) - Real.log (Real.Gamma q)| ≤ (125 + 5 / q) / 2 ^ f.prec + 18 / 10 ^ 15 := by
  have hu := uro_pos_real f
  have hu7 := uro7_real f
  have huq := uro_eq f
  have h1r : 4 * (uro f : ℝ) ≤ q := by
    have := (Rat.cast_le (K := ℝ)).2 h1; push_cast at this; rw [div_eq_mul_one_div] at this; rw [huq]; exact this
  have h1' : 4 * uro f ≤ q := by exact_mod_cast h1r
  have h2' : (q:ℝ) < 1 / 2 := by have := (Rat.cast_lt (K := ℝ)).2 h2; push_cast at this; exact this
  have hup := uro_pos f
  have hmn := minNormal_le_uro f
  have hq0 : (0:ℝ) < q := by linarith
  obtain ⟨v, iv, ev⟩ := lg_check_begin hf hx (by linarith) (by rintro rfl; norm_num at h2) (by norm_num; linarith)
  rw [ev]
  have er0 : |rnd f (q - 1) - (q - 1)| ≤ uro f * (1 - q) := by
    have := rnd_err_rel (f := f) (q := q - 1) (by
      rw [abs_of_neg (by linarith)]; exact (minNormal_le' f).trans (le_trans (by norm_num) (show (1/2:ℚ) ≤ _ by linarith)))
    rwa [abs_of_neg (show q - 1 < 0 by linarith), neg_sub] at this
  have z3 : |rnd f (q - 1) + 1 - q| ≤ uro f := by
    rw [show rnd f (q - 1) + 1 - q = rnd f (q - 1) - (q - 1) by ring]
    nlinarith
  have bz := abs_le.1 z3
  have hu7q := uro_le7 f
  have hug := uro_ge f
  have hb1 : (1:ℚ) / 2 ^ 70 ≤ rnd f (q - 1) + 1 := by
    norm_num at hug ⊢
    linarith
  have hb2 : rnd f (q - 1) ≤ 2 ^ 90 := by norm_num at hu7q ⊢; linarith
  obtain ⟨r, w, er, br⟩ := lg_begin hf iv (rep_rnd f _) hb1 hb2
  refine ⟨r, w, er, ?_⟩
  rw [div_eq_mul_one_div _ ((2:ℝ) ^ f.prec), ← uro_eq]
  have ez1 : ((rnd f (q - 1) : ℚ) : ℝ) + 1 / 2 = (((rnd f (q - 1) : ℚ) : ℝ) + 1) - 1 / 2 := by ring
  have ez2 : ((rnd f (q - 1) : ℚ) : ℝ) + 671 / 128 = (((rnd f (q - 1) : ℚ) : ℝ) + 1) + 543 / 128 := by ring
  rw [ez1, ez2] at br
  have z3' : |((rnd f (q - 1) : ℚ) : ℝ) + 1 - q| ≤ uro f := by
    have := (Rat.cast_le (K := ℝ)).2 z3; push_cast at this; exact this
  generalize ((rnd f (q - 1) : ℚ) : ℝ) + 1 = Z at *
  have b := abs_le.1 z3'
  have hZ0 : 3 / 4 * (q:ℝ) ≤ Z := by linarith
  have hZp : 0 < Z := by linarith
  have hZ1 : Z ≤ 501 / 1000 := by norm_num at hu7; linarith
  have hlan := Lan.lanczos_all hZp
  have hc := lg_coef_small hZp hZ1
  have hiq : 1 / Z ≤ 4 / 3 * (1 / q) := by
    rw [div_le_iff₀ hZp]
    have : 4 / 3 * (1 / (q:ℝ)) * (3 / 4 * q) ≤ 4 / 3 * (1 / (q:ℝ)) * Z := mul_le_mul_of_nonneg_left hZ0 (by positivity)
    have e : 4 / 3 * (1 / (q:ℝ)) * (3 / 4 * q) = 1 := by field_simp
    linarith
  have hq2 : 2 ≤ 1 / (q:ℝ) := by rw [le_div_iff₀ hq0]; linarith
  have hlog : Real.log (1 / Z) ≤ 1 / 2 * (1 / q) := by
    have a1 : Real.log (1 / Z) ≤ Real.log (4 / 3 * (1 / q)) := Real.log_le_log (by positivity) hiq
    have a2 : Real.log (4 / 3 * (1 / (q:ℝ))) = Real.log (4 / 3 * 2) + Real.log (1 / q / 2) := by
      rw [← Real.log_mul (by norm_num) (by positivity)]; congr 1; ring
    have a3 := Real.log_le_sub_one_of_pos (show (0:ℝ) < 1 / q / 2 by positivity)
    have a4 : Real.log (4 / 3 * 2 : ℝ) ≤ 1 := by
      rw [Real.log_le_iff_le_exp (by norm_num)]
      have := Real.exp_one_gt_d9
      norm_num at this ⊢
      linarith
    linarith
  have hΓ : |Real.log (Real.Gamma Z) - Real.log (Real.Gamma q)| ≤ uro f * (4 / 3 * (1 / q) + 115 / 100) := by
    rcases le_total Z q with hZ | hZ
    · have hl := Lan.lg_down hZp hZ (by linarith)
      rw [abs_of_nonneg hl.1]
      exact hl.2.trans (mul_le_mul (by linarith) (by linarith) (by positivity) hu.le)
    · have hl := Lan.lg_down hq0 hZ (by linarith)
      rw [abs_sub_comm, abs_of_nonneg hl.1]
      exact hl.2.trans (mul_le_mul (by linarith) (by linarith) (by positivity) hu.le)
  have h3 := abs_add_le ((r:ℝ) - Lan.lanL Z) (Lan.lanL Z - Real.log (Real.Gamma Z))
  rw [sub_add_sub_cancel] at h3
  have h3' := abs_add_le ((r:ℝ) - Real.log (Real.Gamma Z)) (Real.log (Real.Gamma Z) - Real.log (Real.Gamma q))
  rw [sub_add_sub_cancel] at h3'
  have hT : 1207 / 10 + 72 / 10 * Real.log (1 / Z) + (4 / 3 * (1 / q) + 115 / 100) ≤ 125 + 5 / (q:ℝ) := by
    have : 5 / (q:ℝ) = 5 * (1 / q) := by ring
    linarith
  have h4 := mul_le_mul_of_nonneg_right hT hu.le
  have h5 := mul_le_mul_of_nonneg_right hc hu.le
  linarith

theorem rnd_tiny_sub (hf : f.exact = false) {q : ℚ} (h0 : 0 ≤ q) (h1 : q ≤ 1 / 2 / 2 ^ f.prec) : rnd f (q - 1) = -1 := by
  have e : rnd f (1 / 2 / 2 ^ f.prec - 1) = -1 := by
    rcases f with ⟨⟨⟩, ⟨⟩⟩ <;> first | decide +kernel | cases hf
  have e1 : rnd f (-1) = -1 := by rcases f with ⟨⟨⟩, ⟨⟩⟩ <;> decide +kernel
  apply le_antisymm
  · have := rnd_mono (f := f) (show q - 1 ≤ 1 / 2 / 2 ^ f.prec - 1 by linarith); rwa [e] at this
  · have := rnd_mono (f := f) (show (-1:ℚ) ≤ q - 1 by linarith); rwa [e1] at this

theorem lg_begin_neg_one (z : Bool) : lgamma_begin (fin (-1) z : FV f) = .ok (inf false) := by
  rcases f with ⟨⟨⟩, ⟨⟩⟩ <;> cases z <;> decide +kernel

theorem log_gamma_le {x : ℝ} (h0 : 0 < x) (h1 : x ≤ 1) : Real.log (Real.Gamma x) ≤ -Real.log x := by
  have hc := Real.convexOn_log_Gamma.2 (show (1:ℝ) ∈ Set.Ioi 0 by simp) (show (2:ℝ) ∈ Set.Ioi 0 by simp)
    (show 0 ≤ 1 - x by linarith) h0.le (by ring)
  simp only [smul_eq_mul, Function.comp_apply, mul_one, Real.Gamma_one, Real.Gamma_two, Real.log_one, mul_zero, add_zero] at hc
  rw [show 1 - x + x * 2 = x + 1 by ring, Real.Gamma_add_one h0.ne', Real.log_mul h0.ne' (Real.Gamma_pos_of_pos h0).ne'] at hc
  linarith

/-- C72, false near zero: for every argument from the least normal value up to a quarter of the machine
epsilon the result is `+inf`, although `log (Gamma x)` is at most `-log x`. -/
theorem C72_tiny (hf : f.exact = false) (q : ℚ) (z : Bool) (hx : Valid (fin q z : FV f)) (h1 : minNormal f ≤ q)
    (h2 : q ≤ 1 / 2 / 2 ^ f.prec) : lgamma (fin q z : FV f) = .ok (inf false) ∧ Real.log (Real.Gamma q) ≤ -Real.log q := by
  have hup := uro_pos f
  have hq : q ≤ 1 / 2 := h2.trans (by rcases f with ⟨⟨⟩, ⟨⟩⟩ <;> decide +kernel)
  have hq0 : 0 < q := lt_of_lt_of_le (minNormal_pos f) h1
  obtain ⟨v, iv, ev⟩ := lg_check_begin hf hx h1 (by rintro rfl; norm_num at hq) (by norm_num; linarith)
  rw [rnd_tiny_sub hf hq0.le h2] at iv
  obtain ⟨w, rfl⟩ := iv
  refine ⟨by rw [ev, lg_begin_neg_one], log_gamma_le (by exact_mod_cast hq0) ?_⟩
  have := (Rat.cast_le (K := ℝ)).2 hq
  push_cast at this
  linarith

/-- `lgamma(5.0)` is within `10^-12` of `log 24` -/
example : ∃ r w, lgamma (fin 5 false : FV binary64) = .ok (fin r w) ∧ |(r:ℝ) - Real.log 24| ≤ 1 / 10 ^ 12 := by
  obtain ⟨r, w, e, b⟩ := C72_accuracy (f := binary64) rfl 5 false (by decide +kernel) (by norm_num) (by norm_num)
  refine ⟨r, w, e, ?_⟩
  have hG : Real.Gamma ((5:ℚ):ℝ) = 24 := by
    have := Real.Gamma_nat_eq_factorial 4
    norm_num [Nat.factorial] at this ⊢
  rw [hG] at b
  have hl : Real.log (((5:ℚ):ℝ) + 6) ≤ 10 := by
    have := Real.log_le_sub_one_of_pos (show (0:ℝ) < ((5:ℚ):ℝ) + 6 by norm_num)
    norm_num at this ⊢; linarith
  refine b.trans ?_
  rw [show binary64.prec = 53 from rfl]
  norm_num at hl ⊢
  linarith

/-- `lgamma(1.0/1024)` is within `10^-12` of the true value -/
example : ∃ r w, lgamma (fin (1 / 1024) false : FV binary64) = .ok (fin r w) ∧
    |(r:ℝ) - Real.log (Real.Gamma ((1 / 1024 : ℚ) : ℝ))| ≤ 1 / 10 ^ 12 := by
  obtain ⟨r, w, e, b⟩ := C72_small (f := binary64) rfl (1 / 1024) false (by decide +kernel) (by decide +kernel) (by norm_num)
  refine ⟨r, w, e, b.trans ?_⟩
  rw [show binary64.prec = 53 from rfl]
  norm_num

/-- `lgamma(2^-60)` is `+inf`; the true value is about 41.6 -/
example : lgamma (fin (1 / 2 ^ 60) false : FV binary64) = .ok (inf false) :=
  (C72_tiny (f := binary64) rfl (1 / 2 ^ 60) false (by decide +kernel) (by decide +kernel) (by decide +kernel)).1

end Gcem.Props
