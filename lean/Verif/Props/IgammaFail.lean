import Verif.Props.IgammaLow
import Verif.Props.Sqrt

/-!
# C80: two failures of incomplete_gamma

The quadrature branch ignores `z` beyond a fixed multiple of `√a`, and very small `a` give NaN.
-/

namespace Gcem.Props
open Gcem FV Ku
variable {f : Fmt}

theorem sqrt_ten (hf : f.exact = false) {q : ℚ} {w : Bool} (hx : Valid (fin q w : FV f)) (hq : 10 ≤ q) :
    ∃ r : ℚ, sqrt (fin q w : FV f) = .ok (fin r false) ∧ |(r:ℝ) - √(q:ℝ)| ≤ 1 / 10 ^ 5 * √(q:ℝ) := by
  have h0 := Real.sqrt_nonneg (q:ℝ)
  rcases f with ⟨⟨⟩, ⟨⟩⟩ <;> simp at hf
  · obtain ⟨r, e, b⟩ := C26_float q w hx (le_trans (by norm_num) hq)
    exact ⟨r, e, b.trans (mul_le_mul_of_nonneg_right (by norm_num) h0)⟩
  · obtain ⟨r, e, b⟩ := C26_double q w hx (le_trans (by norm_num) hq)
    exact ⟨r, e, b.trans (mul_le_mul_of_nonneg_right (by norm_num) h0)⟩
  · obtain ⟨r, e, b⟩ := C26_long_double q w hx (le_trans (by norm_num) hq)
    exact ⟨r, e, b.trans (mul_le_mul_of_nonneg_right (by norm_num) h0)⟩

theorem quad_ub_mult_bd (a : ℚ) (w : Bool) : 5 ≤ incomplete_gamma_quad_ub_mult (fin a w : FV f) ∧ incomplete_gamma_quad_ub_mult (fin a w : FV f) ≤ 10 := by
  unfold incomplete_gamma_quad_ub_mult
  split_ifs <;> decide

theorem quad_ub_mult_five {a : ℚ} (w : Bool) (ha : a ≤ 50) : incomplete_gamma_quad_ub_mult (fin a w : FV f) = 5 := by
  have key : ∀ n : ℤ, 50 ≤ n → n ≤ 1000 → ¬ ((fin a w : FV f) > i n) := by
    intro n h1 h2
    obtain ⟨w', e⟩ := is_i (f := f) (n := n) (by rw [abs_le]; constructor <;> omega)
    rw [e]; change ¬ (fin _ _ < fin _ _); simp
    have : (50:ℚ) ≤ n := by exact_mod_cast h1
    linarith
  unfold incomplete_gamma_quad_ub_mult
  rw [if_neg (key _ (by norm_num) (by norm_num)), if_neg (key _ (by norm_num) (by norm_num)), if_neg (key _ (by norm_num) (by norm_num)),
    if_neg (key _ (by norm_num) (by norm_num)), if_neg (key _ (by norm_num) (by norm_num)), if_neg (key _ (by norm_num) (by norm_num)),
    if_neg (key _ (by norm_num) (by norm_num)), if_neg (key _ (by norm_num) (by norm_num))]

/-- the branch of the quadrature, and its limits -/
theorem quad_form (hf : f.exact = false) {a : ℚ} {wa : Bool} (ha : Valid (fin a wa : FV f)) (a1 : 10 ≤ a) (a2 : a ≤ 2 ^ 100) :
    ∃ R : Res (FV f), ∀ (z : ℚ) (wz : Bool), Valid (fin z wz : FV f) → z ≤ 3 * a →
      ((a:ℝ) + 1001 / 100 * √a ≤ z ∨ a ≤ 50 ∧ (a:ℝ) + 501 / 100 * √a ≤ z) →
      incomplete_gamma (fin a wa : FV f) (fin z wz) = R := by
  obtain ⟨s, es, bs⟩ := sqrt_ten hf ha a1
  have hu := uro_pos_real f
  have hu7 := uro7_real f
  have a1' : (10:ℝ) ≤ a := by exact_mod_cast a1
  have hs0 : 0 < √(a:ℝ) := Real.sqrt_pos.2 (by linarith)
  have hsa : √(a:ℝ) ≤ a := by
    rw [Real.sqrt_le_left (by linarith)]; nlinarith
  have a2' : (a:ℝ) ≤ 2 ^ 100 := by exact_mod_cast a2
  obtain ⟨m1, m2⟩ := quad_ub_mult_bd (f := f) a wa
  have m50 := quad_ub_mult_five (f := f) (a := a) wa
  obtain ⟨bs1, bs2⟩ := abs_le.1 bs
  generalize hm : incomplete_gamma_quad_ub_mult (fin a wa : FV f) = m at *
  have m1' : (5:ℝ) ≤ m := by exact_mod_cast m1
  have m2' : (m:ℝ) ≤ 10 := by exact_mod_cast m2
  have hms : |(m:ℝ) * s| ≤ m * (1 + 1 / 10 ^ 5) * √a := by
    rw [abs_mul, abs_of_nonneg (by linarith : (0:ℝ) ≤ m), mul_assoc]
    refine mul_le_mul_of_nonneg_left ?_ (by linarith)
    rw [abs_le]; constructor <;> norm_num at bs1 bs2 ⊢ <;> linarith
  have hms2 : (m:ℝ) * (1 + 1 / 10 ^ 5) * √a ≤ 10 * (1 + 1 / 10 ^ 5) * √a := by gcongr
  have e1 := rnd_all_real f ((m:ℚ) * s)
  have im := (is_i (f := f) (n := m) (by rw [abs_le]; constructor <;> omega)).mul (is_fin s false) (nov (by
    rw [← Rat.cast_le (K := ℝ)]; push_cast; refine hms.trans (hms2.trans ?_); norm_num at a2' ⊢; linarith))
  push_cast at e1
  have hp : |((rnd f ((m:ℚ) * s) : ℚ):ℝ)| ≤ m * (1 + 2 / 10 ^ 5) * √a := by
    have h1 := abs_sub_abs_le_abs_sub ((rnd f ((m:ℚ) * s) : ℚ):ℝ) (m * s)
    have h2 : (uro f : ℝ) * |(m:ℝ) * s| ≤ 1 / 10 ^ 7 * (m * (1 + 1 / 10 ^ 5) * √a) := mul_le_mul hu7 hms (abs_nonneg _) (by norm_num)
    have h3 : 3 ≤ √(a:ℝ) := Real.le_sqrt_of_sq_le (by linarith)
    have h4 := mul_le_mul_of_nonneg_right m1' hs0.le
    norm_num only at h2 hms hu7 ⊢
    linarith
  have hp2 : (m:ℝ) * (1 + 2 / 10 ^ 5) * √a ≤ 10 * (1 + 2 / 10 ^ 5) * √a := by gcongr
  generalize rnd f ((m:ℚ) * s) = p at *
  obtain ⟨wu, eu⟩ := (is_fin (f := f) a wa).add im (nov (by
    rw [← Rat.cast_le (K := ℝ)]; push_cast
    have := abs_add_le (a:ℝ) p
    rw [abs_of_nonneg (by linarith : (0:ℝ) ≤ a)] at this
    norm_num at hp2 a2' hp ⊢; linarith))
  obtain ⟨w10, e10⟩ := is_i (f := f) (n := 10) (by norm_num)
  obtain ⟨w3, e3⟩ := is_i (f := f) (n := 3) (by norm_num)
  refine ⟨do
    let lg ← lgamma (fin a wa : FV f)
    incomplete_gamma_quad_recur (fmax (i 0) (fin a wa - i (incomplete_gamma_quad_lb_mult (fin a wa : FV f)) * fin s false))
      (fin (rnd f (a + p)) wu) (fin a wa) lg 0, ?_⟩
  intro z wz hz z3 hor
  have hub : (a:ℝ) + p ≤ z := by
    have h1 := le_abs_self (p:ℝ)
    rcases hor with h | ⟨h, h'⟩
    · norm_num only at hp hp2 h ⊢; linarith
    · have : (m:ℝ) = 5 := by exact_mod_cast m50 h
      rw [this] at hp
      norm_num only at hp h' ⊢; linarith
  have haz : a ≤ z := by
    have : (a:ℝ) ≤ z := by rcases hor with h | ⟨h, h'⟩ <;> linarith
    exact_mod_cast this
  have hru : rnd f (a + p) ≤ z := rnd_le_of_rep hz.rep (by exact_mod_cast hub)
  have hmin1 : fmin (fin z wz : FV f) (fin a wa) = fin a wa := by
    unfold fmin; rw [if_neg]; change ¬ (fin _ _ < fin _ _); simpa using haz
  have hmin2 : fmin (fin z wz : FV f) (fin (rnd f (a + p)) wu) = fin (rnd f (a + p)) wu := by
    unfold fmin; rw [if_neg]; change ¬ (fin _ _ < fin _ _); simpa using hru
  have hmna : ¬ ((limMin : FV f) > fin a wa) := by
    have h1 := minNormal_le' f
    unfold limMin; change ¬ (fin _ _ < fin _ _); simp; exact h1.trans (le_trans (by norm_num) a1)
  have hmnz : ¬ ((limMin : FV f) > fin z wz) := by
    have h1 := minNormal_le' f
    unfold limMin; change ¬ (fin _ _ < fin _ _); simp; exact h1.trans (le_trans (by norm_num) (a1.trans haz))
  have hza : z / a ≤ 3 := by rw [div_le_iff₀ (by linarith)]; linarith
  obtain ⟨wq, eq⟩ := (is_fin (f := f) z wz).div (is_fin a wa) (by linarith) (nov (by
    rw [abs_of_nonneg (div_nonneg (by linarith) (by linarith))]; linarith))
  have r3 : rnd f (z / a) ≤ 3 := rnd_le_of_rep (by simpa using rep_int (f := f) (n := 3) (by have := two_pow_prec f; simp; omega)) hza
  have n10 : ¬ ((fin a wa : FV f) < i 10) := by rw [e10]; simpa using a1
  unfold incomplete_gamma incomplete_gamma_check
  rw [if_neg (by simp [any_nan, is_nan]), if_neg (by simp; linarith), if_neg hmnz, if_neg hmna,
    if_neg (fun h => n10 h.1), if_neg]
  · unfold incomplete_gamma_quad incomplete_gamma_quad_lb incomplete_gamma_quad_ub
    simp only [es, bind, Except.bind, hm, eu, hmin1, hmin2]
  · rintro (h | h)
    · exact n10 h
    · rw [eq, e3] at h; change fin _ _ < fin _ _ at h; simp at h; linarith

/-- C80: for `a ≥ 10` and `z ≤ 3a` the result does not depend on `z` once `z ≥ a + 10.01 √a`
(`a + 5.01 √a` for `a ≤ 50`) -/
theorem C80_saturation (hf : f.exact = false) (a z z' : ℚ) (wa wz wz' : Bool) (ha : Valid (fin a wa : FV f)) (hz : Valid (fin z wz : FV f))
    (hz' : Valid (fin z' wz' : FV f)) (a1 : 10 ≤ a) (a2 : a ≤ 2 ^ 100)
    (h1 : (a:ℝ) + 1001 / 100 * √a ≤ z ∨ a ≤ 50 ∧ (a:ℝ) + 501 / 100 * √a ≤ z) (h2 : z ≤ z') (h3 : z' ≤ 3 * a) :
    incomplete_gamma (fin a wa : FV f) (fin z wz) = incomplete_gamma (fin a wa) (fin z' wz') := by
  obtain ⟨R, hR⟩ := quad_form hf ha a1 a2
  have h2' : (z:ℝ) ≤ z' := by exact_mod_cast h2
  rw [hR z wz hz (h2.trans h3) h1, hR z' wz' hz' h3 (by
    rcases h1 with h | ⟨h, h'⟩
    · exact Or.inl (h.trans h2')
    · exact Or.inr ⟨h, h'.trans h2'⟩)]

/-! ### the exact values -/

theorem lo_one {z : ℝ} (hz : 0 < z) : lo 1 z = 1 - Real.exp (-z) := by
  unfold lo
  have h : ∀ t ∈ Set.Ioc 0 z, Real.exp (-t) * t ^ ((1:ℝ) - 1) = Real.exp (-t) := by intro t _; simp
  rw [MeasureTheory.setIntegral_congr_fun measurableSet_Ioc h, ← intervalIntegral.integral_of_le hz.le]
  have := intervalIntegral.integral_comp_neg (a := 0) (b := z) Real.exp
  rw [this, integral_exp]; simp

theorem lo_ten {z : ℝ} (hz : 0 < z) : lo 10 z / Real.Gamma 10 = 1 - Real.exp (-z) * (1 + z + z ^ 2 / 2 + z ^ 3 / 6 + z ^ 4 / 24 + z ^ 5 / 120
    + z ^ 6 / 720 + z ^ 7 / 5040 + z ^ 8 / 40320 + z ^ 9 / 362880) := by
  have hG : Real.Gamma 10 = 362880 := by
    have := Real.Gamma_nat_eq_factorial 9
    rw [show ((9:ℕ):ℝ) + 1 = 10 by norm_num] at this
    rw [this]; norm_num [Nat.factorial]
  have r : ∀ n : ℕ, 0 < n → lo ((n + 1 : ℕ) : ℝ) z = n * lo n z - z ^ n * Real.exp (-z) := by
    intro n hn
    have := lo_rec (a := n) (z := z) (by exact_mod_cast hn) hz
    rw [Real.rpow_natCast] at this
    push_cast; linarith
  have h1 := lo_one hz
  have h2 := r 1 (by norm_num)
  have h3 := r 2 (by norm_num)
  have h4 := r 3 (by norm_num)
  have h5 := r 4 (by norm_num)
  have h6 := r 5 (by norm_num)
  have h7 := r 6 (by norm_num)
  have h8 := r 7 (by norm_num)
  have h9 := r 8 (by norm_num)
  have h10 := r 9 (by norm_num)
  norm_num at h2 h3 h4 h5 h6 h7 h8 h9 h10
  rw [hG, h10, h9, h8, h7, h6, h5, h4, h3, h2, h1]
  ring

theorem lo_ten_gap : lo 10 26 / Real.Gamma 10 + 106 / 10 ^ 6 ≤ lo 10 30 / Real.Gamma 10 := by
  rw [lo_ten (by norm_num), lo_ten (by norm_num)]
  have h26 : (2.718281829:ℝ)⁻¹ ^ 26 ≤ Real.exp (-26) := by
    rw [Real.exp_neg, show (26:ℝ) = ((26:ℕ):ℝ) * 1 by norm_num, Real.exp_nat_mul, ← inv_pow]
    have := Real.exp_one_lt_d9
    refine pow_le_pow_left₀ (by norm_num) ?_ _
    exact inv_anti₀ (Real.exp_pos _) (by linarith)
  have h30 : Real.exp (-30) ≤ (2.718281828:ℝ)⁻¹ ^ 30 := by
    rw [Real.exp_neg, show (30:ℝ) = ((30:ℕ):ℝ) * 1 by norm_num, Real.exp_nat_mul, ← inv_pow]
    have := Real.exp_one_gt_d9
    refine pow_le_pow_left₀ (inv_nonneg.2 (Real.exp_pos _).le) ?_ _
    exact inv_anti₀ (by norm_num) (by linarith)
  have k1 := mul_le_mul_of_nonneg_right h26 (show (0:ℝ) ≤ 1 + 26 + 26 ^ 2 / 2 + 26 ^ 3 / 6 + 26 ^ 4 / 24 + 26 ^ 5 / 120
    + 26 ^ 6 / 720 + 26 ^ 7 / 5040 + 26 ^ 8 / 40320 + 26 ^ 9 / 362880 by norm_num)
  have k2 := mul_le_mul_of_nonneg_right h30 (show (0:ℝ) ≤ 1 + 30 + 30 ^ 2 / 2 + 30 ^ 3 / 6 + 30 ^ 4 / 24 + 30 ^ 5 / 120
    + 30 ^ 6 / 720 + 30 ^ 7 / 5040 + 30 ^ 8 / 40320 + 30 ^ 9 / 362880 by norm_num)
  have k3 : (2.718281828:ℝ)⁻¹ ^ 30 * (1 + 30 + 30 ^ 2 / 2 + 30 ^ 3 / 6 + 30 ^ 4 / 24 + 30 ^ 5 / 120
    + 30 ^ 6 / 720 + 30 ^ 7 / 5040 + 30 ^ 8 / 40320 + 30 ^ 9 / 362880) + 106 / 10 ^ 6 ≤ (2.718281829:ℝ)⁻¹ ^ 26 * (1 + 26 + 26 ^ 2 / 2 + 26 ^ 3 / 6 + 26 ^ 4 / 24 + 26 ^ 5 / 120
    + 26 ^ 6 / 720 + 26 ^ 7 / 5040 + 26 ^ 8 / 40320 + 26 ^ 9 / 362880) := by norm_num
  linarith

/-- C80: consequence for `a = 10`: the results at 26 and at 30 are the same value, and at one of the two the error is
above `5e-5`, in every type -/
theorem C80_error (hf : f.exact = false) (r : ℚ) (w : Bool)
    (h : incomplete_gamma (fin 10 false : FV f) (fin 26 false) = .ok (fin r w)) :
    incomplete_gamma (fin 10 false : FV f) (fin 30 false) = .ok (fin r w) ∧
    (5 / 10 ^ 5 < |(r:ℝ) - (∫ t in Set.Ioc 0 (26:ℝ), Real.exp (-t) * t ^ ((10:ℝ) - 1)) / Real.Gamma 10| ∨
     5 / 10 ^ 5 < |(r:ℝ) - (∫ t in Set.Ioc 0 (30:ℝ), Real.exp (-t) * t ^ ((10:ℝ) - 1)) / Real.Gamma 10|) := by
  have v : ∀ n : ℤ, 0 < n → n < 100 → Valid (fin (n:ℚ) false : FV f) := fun n h1 h2 => by
    have := i_small (f := f) (n := n) (by rw [abs_le]; constructor <;> omega)
    rw [← this]; exact valid_i _
  have hs : √((10:ℚ):ℝ) ≤ 3163 / 1000 := by
    rw [Real.sqrt_le_left (by norm_num)]; norm_num
  have hsat := C80_saturation hf 10 26 30 false false false (by simpa using v 10 (by norm_num) (by norm_num)) (by simpa using v 26 (by norm_num) (by norm_num))
    (by simpa using v 30 (by norm_num) (by norm_num)) le_rfl (by norm_num) (Or.inr ⟨by norm_num, by push_cast at hs ⊢; linarith⟩) (by norm_num) (by norm_num)
  refine ⟨hsat ▸ h, ?_⟩
  by_contra hc
  push Not at hc
  have hg := lo_ten_gap
  unfold lo at hg
  obtain ⟨c1, c2⟩ := hc
  have c1' := abs_le.1 c1
  have c2' := abs_le.1 c2
  norm_num at c1' c2' hg
  linarith

/-- 26 and 30 with `a = 10` in double -/
example : incomplete_gamma (fin 10 false : FV binary64) (fin 26 false) = incomplete_gamma (fin 10 false) (fin 30 false) :=
  C80_saturation rfl 10 26 30 false false false (by decide +kernel) (by decide +kernel) (by decide +kernel) le_rfl (by norm_num)
    (Or.inr ⟨by norm_num, by
      have hs : √((10:ℚ):ℝ) ≤ 3163 / 1000 := by rw [Real.sqrt_le_left (by norm_num)]; norm_num
      push_cast at hs ⊢; linarith⟩) (by norm_num) (by norm_num)

/-! ### very small `a` -/

theorem rnd_near_one (hf : f.exact = false) : rnd f (1 - uro f / 2) = 1 ∧ rnd f (1 + uro f) = 1 := by
  rcases f with ⟨⟨⟩, ⟨⟩⟩ <;> simp at hf <;> decide +kernel

theorem lgamma_begin_neg_one (hf : f.exact = false) (w : Bool) : lgamma_begin (fin (-1) w : FV f) = .ok (inf false) := by
  rcases f with ⟨⟨⟩, ⟨⟩⟩ <;> simp at hf <;> cases w <;> decide +kernel

theorem zero_div_any (w : Bool) (x : FV f) : (fin 0 w / x : FV f) = nan ∨ ∃ w', (fin 0 w / x : FV f) = fin 0 w' := by
  rcases x with _ | s | ⟨q, z⟩
  · left; rfl
  · right; exact ⟨_, rfl⟩
  · by_cases hq : q = 0
    · left; subst hq; rfl
    · right
      have := (is_fin (f := f) 0 w).div (is_fin q z) hq (nov (by simp))
      rw [zero_div, rnd_zero] at this
      exact this

/-- C80: for `a` from the least normal number up to half a unit roundoff the result is NaN -/
theorem C80_tiny (hf : f.exact = false) (a z : ℚ) (wa wz : Bool) (hz : Valid (fin z wz : FV f))
    (a1 : minNormal f ≤ a) (a2 : a ≤ uro f / 2) (z1 : 1 / 2 ≤ z) (z2 : z ≤ 9) :
    incomplete_gamma (fin a wa : FV f) (fin z wz) = .ok nan := by
  obtain ⟨n1, n2⟩ := rnd_near_one hf
  have hmp := minNormal_pos f
  have hu := uro_pos f
  have r1 : rnd f 1 = 1 := by
    have : Rep f ((1:ℤ):ℚ) := rep_int (by have := two_pow_prec f; simp; omega)
    push_cast at this; exact this
  have h1 : rnd f (a - 1) = -1 := by
    rw [show a - 1 = -(1 - a) by ring, rnd_neg]
    have k1 := rnd_mono (f := f) (show 1 - uro f / 2 ≤ 1 - a by linarith)
    have k2 := rnd_mono (f := f) (show 1 - a ≤ 1 by linarith)
    rw [n1] at k1; rw [r1] at k2
    rw [le_antisymm k2 k1]
  have h2 : rnd f (a + 1) = 1 := by
    have k1 := rnd_mono (f := f) (show a + 1 ≤ 1 + uro f by linarith)
    have k2 := rnd_mono (f := f) (show 1 ≤ a + 1 by linarith)
    rw [n2] at k1; rw [r1] at k2
    exact le_antisymm k1 k2
  have hm1 := minNormal_lt_one f
  have hu7 := uro7_real f
  have a3 : a ≤ 1 := by
    have : (uro f : ℝ) ≤ 1 := hu7.trans (by norm_num)
    have h : uro f ≤ 1 := by exact_mod_cast this
    linarith
  have hmna : ¬ ((limMin : FV f) > fin a wa) := by
    unfold limMin; change ¬ (fin _ _ < fin _ _); simpa using a1
  have hmnz : ¬ ((limMin : FV f) > fin z wz) := by
    have h1 := minNormal_le' f
    unfold limMin; change ¬ (fin _ _ < fin _ _); simp; exact h1.trans (le_trans (by norm_num) z1)
  -- the steps of the computation
  obtain ⟨w1, e1⟩ := (is_fin (f := f) a wa).sub (is_fin 1 false) (nov (by rw [abs_le]; constructor <;> norm_num <;> linarith))
  rw [h1] at e1
  have eg : lgamma (fin a wa : FV f) = .ok (inf false) := by
    unfold lgamma lgamma_check
    rw [if_neg (by simp [is_nan]), i_one, e1, if_neg (by rw [limMin_gt_fabs]; norm_num; linarith), if_neg hmna]
    exact lgamma_begin_neg_one hf w1
  obtain ⟨l, wl, el, bl⟩ := log_half hf z wz hz z1
  have hl4 : |l| ≤ 100 := by
    rw [← Rat.cast_le (K := ℝ)]; push_cast
    have z1' : (1 / 2 : ℝ) ≤ z := by have := (Rat.cast_le (K := ℝ)).2 z1; push_cast at this; exact this
    have z2' : (z:ℝ) ≤ 9 := by exact_mod_cast z2
    have k1 := Real.log_le_sub_one_of_pos (show (0:ℝ) < z by linarith)
    have k2 := Real.one_sub_inv_le_log_of_pos (show (0:ℝ) < z by linarith)
    have k3 : (z:ℝ)⁻¹ ≤ 2 := by rw [inv_le_comm₀ (by linarith) (by norm_num)]; linarith
    have k4 : |Real.log z| ≤ 8 := by rw [abs_le]; constructor <;> linarith
    have k5 := abs_sub_abs_le_abs_sub (l:ℝ) (Real.log z)
    have k6 := mul_le_mul (show 15 + 5 * |Real.log z| ≤ 55 by linarith) hu7 (uro_pos_real f).le (by norm_num)
    norm_num only at k6 ⊢
    linarith
  have hal : |a * l| ≤ 100 := by
    rw [abs_mul, abs_of_pos (by linarith)]
    have := mul_le_mul a3 hl4 (abs_nonneg _) (by norm_num)
    linarith
  have im := (is_fin (f := f) a wa).mul (is_fin l wl) (nov (hal.trans (by norm_num)))
  have hrl : |rnd f (a * l)| ≤ 100 := by
    have : Rep f ((100:ℤ):ℚ) := rep_int (by have := two_pow_prec f; simp; omega)
    push_cast at this
    rw [abs_le] at hal ⊢
    exact ⟨le_rnd_of_rep this.neg hal.1, rnd_le_of_rep this hal.2⟩
  obtain ⟨w2, e2⟩ := im.sub (is_fin z wz) (nov (by
    have := abs_sub (rnd f (a * l)) z
    rw [abs_of_pos (show 0 < z by linarith)] at this
    norm_num; linarith))
  have et : fin a wa * fin l wl - fin z wz - (inf false : FV f) = inf true := by rw [e2]; rfl
  have ee : exp (inf true : FV f) = .ok (fin 0 false) := C30_special.2.1
  obtain ⟨w3, e3⟩ := (is_fin (f := f) a wa).add (is_fin 1 false) (nov (by rw [abs_le]; constructor <;> norm_num <;> linarith))
  rw [h2] at e3
  obtain ⟨w4, e4⟩ := (is_fin (f := f) 1 w3).sub (is_fin 1 false) (nov (by norm_num))
  rw [sub_self, rnd_zero] at e4
  obtain ⟨w5, e5⟩ := (is_fin (f := f) 2 false).div (is_fin 2 false) (by norm_num) (nov (by norm_num))
  rw [div_self (by norm_num), r1] at e5
  obtain ⟨w6, e6⟩ := (is_fin (f := f) (-1) w1).add (is_fin 1 w5) (nov (by norm_num))
  rw [neg_add_cancel, rnd_zero] at e6
  obtain ⟨w7, e7⟩ := (is_fin (f := f) 0 w6).neg.mul (is_fin z wz) (nov (by norm_num))
  rw [_root_.neg_zero, zero_mul, rnd_zero] at e7
  have ec : incomplete_gamma_cf_1_coef (fin a wa : FV f) (fin z wz) 1 = fin 0 w7 := by
    unfold incomplete_gamma_cf_1_coef
    rw [if_pos (by norm_num)]
    norm_num only [Nat.cast_one]
    rw [i_one, i_two, e1, e5, e6, e7]
  have er : (fin 0 false / incomplete_gamma_cf_1_recur (fin a wa : FV f) (fin z wz) 1 : FV f) = nan := by
    rw [incomplete_gamma_cf_1_recur, if_pos (by decide), ec]
    norm_num only [Nat.cast_one]
    rw [i_one, e3, e4]
    rcases zero_div_any w7 (incomplete_gamma_cf_1_recur (fin a wa : FV f) (fin z wz) (1 + 1)) with h | ⟨w8, h⟩ <;> norm_num only at h <;> rw [h]
    · rfl
    · obtain ⟨w9, e9⟩ := (is_fin (f := f) 0 w4).add (is_fin 0 w8) (nov (by norm_num))
      rw [add_zero, rnd_zero] at e9
      rw [e9]; rfl
  obtain ⟨w0, e0⟩ := is_i (f := f) (n := 10) (by norm_num)
  obtain ⟨ws, es⟩ := (is_fin (f := f) z wz).sub (is_fin a wa) (nov (by rw [abs_le]; constructor <;> norm_num <;> linarith))
  have r9 : rnd f (z - a) ≤ 9 := by
    have : Rep f ((9:ℤ):ℚ) := rep_int (by have := two_pow_prec f; simp; omega)
    push_cast at this
    exact rnd_le_of_rep this (by linarith)
  unfold incomplete_gamma incomplete_gamma_check
  rw [if_neg (by simp [any_nan, is_nan]), if_neg (by simp; linarith), if_neg hmnz, if_neg hmna,
    if_pos (by rw [es, e0]; simp; constructor <;> linarith)]
  exact lg_eval el eg et ee er

/-- the exact value is close to 1 for these arguments -/
theorem C80_tiny_exact {a z : ℝ} (a0 : 0 < a) (a1 : a ≤ 1 / 100) (z1 : 1 / 2 ≤ z) :
    1 - 20 * a ≤ (∫ t in Set.Ioc 0 z, Real.exp (-t) * t ^ (a - 1)) / Real.Gamma a := by
  have hz : 0 < z := by linarith
  have hΓ := Real.Gamma_pos_of_pos a0
  rw [UG.K_compl a0 hz, sub_div, div_self hΓ.ne']
  have hK : UG.K a z 0 ≤ 2 := by
    have h1 : UG.K a z 0 ≤ ∫ s in Set.Ioi z, 2 * Real.exp (-s) := by
      unfold UG.K
      refine MeasureTheory.setIntegral_mono_on (UG.k_int a0 hz 0) ((integrableOn_exp_neg_Ioi z).const_mul 2) measurableSet_Ioi fun s hs => ?_
      unfold UG.k
      have hs' : 1 / 2 < s := lt_of_le_of_lt z1 hs
      simp only [pow_zero, one_mul, Nat.cast_zero, sub_zero]
      rw [mul_comm]
      refine mul_le_mul_of_nonneg_right ?_ (Real.exp_pos _).le
      rw [show a - 1 = -(1 - a) by ring, Real.rpow_neg (by linarith), ← Real.inv_rpow (by linarith)]
      have h3 : s⁻¹ ≤ 2 := by rw [inv_le_comm₀ (by linarith) (by norm_num)]; linarith
      refine (Real.rpow_le_rpow (by positivity) h3 (by linarith)).trans ?_
      refine (Real.rpow_le_rpow_of_exponent_le (by norm_num) (show 1 - a ≤ 1 by linarith)).trans (le_of_eq (Real.rpow_one 2))
    refine h1.trans ?_
    rw [MeasureTheory.integral_const_mul, integral_exp_neg_Ioi]
    have : Real.exp (-z) ≤ 1 := Real.exp_le_one_iff.2 (by linarith)
    linarith
  have hG1 : 1 / 10 ≤ Real.Gamma (a + 1) := by
    have h := (abs_le.1 (log_gamma_abs_le (x := a + 1) (by linarith))).1
    have hp := Real.Gamma_pos_of_pos (show 0 < a + 1 by linarith)
    have l1 : Real.log (a + 1 + 6) ≤ 3 * Real.log 2 := by
      rw [← Real.log_rpow (by norm_num)]; exact Real.log_le_log (by linarith) (by norm_num; linarith)
    have l2 := Real.log_two_lt_d9
    have l3 : (a + 1) * Real.log (a + 1 + 6) ≤ (101 / 100) * (3 * Real.log 2) :=
      mul_le_mul (by linarith) l1 (Real.log_nonneg (by linarith)) (by norm_num)
    rw [← Real.exp_log hp]
    have l4 : Real.exp (-(211 / 100)) ≤ Real.exp (Real.log (Real.Gamma (a + 1))) := Real.exp_le_exp.2 (by norm_num at l2 ⊢; linarith)
    refine le_trans ?_ l4
    have l5 := Real.add_one_le_exp (-(1055 / 10000) : ℝ)
    have l6 := pow_le_pow_left₀ (by norm_num) l5 20
    rw [← Real.exp_nat_mul] at l6
    norm_num at l6 ⊢
    linarith
  rw [Real.Gamma_add_one a0.ne'] at hG1
  have : UG.K a z 0 / Real.Gamma a ≤ 20 * a := by
    rw [div_le_iff₀ hΓ]
    nlinarith
  linarith

/-- `incomplete_gamma(2^-60, 1)` in double; the exact value is above `1 - 2e-17` -/
example : incomplete_gamma (fin (1 / 2 ^ 60) false : FV binary64) (fin 1 false) = .ok nan ∧
    1 - 20 * (1 / 2 ^ 60) ≤ (∫ t in Set.Ioc 0 1, Real.exp (-t) * t ^ ((1 / 2 ^ 60 : ℝ) - 1)) / Real.Gamma (1 / 2 ^ 60) :=
  ⟨C80_tiny (f := binary64) rfl _ _ _ _ (by decide +kernel) (by decide +kernel) (by decide +kernel) (by norm_num) (by norm_num),
    C80_tiny_exact (by norm_num) (by norm_num) (by norm_num)⟩

end Gcem.Props
