import Verif.Props.BetaAcc

/-!
# C76: accuracy of lmgamma
-/

namespace Gcem.Props
open Gcem FV
variable {f : Fmt}

theorem rep_sub_half {a : ℚ} (hf : f.exact = false) (hr : Rep f a) (h1 : 1 ≤ a) (h2 : a ≤ 2 ^ 22) : Rep f (a - 1 / 2) := by
  have hq : a ≠ 0 := by linarith
  obtain ⟨m, hm, hb⟩ := rep_scaled hf hq hr
  have hl : ilog2 a < 23 := by
    rw [ilog2_lt_iff hq, abs_of_pos (by linarith)]
    have : pow2 23 = 2 ^ 23 := by norm_num [pow2_eq]
    rw [this]; norm_num at h2 ⊢; linarith
  have he : fexp f a ≤ -1 := by
    have hp : (24:ℤ) ≤ f.prec := by rcases f with ⟨⟨⟩, _⟩ <;> simp [Fmt.prec, FTy.prec]
    have hm : f.emin ≤ -1 := by rcases f with ⟨⟨⟩, ⟨⟩⟩ <;> decide
    unfold fexp; omega
  obtain ⟨k, hk0, hk⟩ := pow2_mult he
  have e : a - 1 / 2 = ((m - k : ℤ) : ℚ) * pow2 (fexp f a) := by
    have h3 : pow2 (-1) = 1 / 2 := by norm_num [pow2_eq]
    push_cast
    rw [sub_mul, ← hk, ← hm, h3]
  rw [e]
  refine rep_of_scaled ?_ ?_
  · have hpos := pow2_pos (fexp f a)
    have hm0 : 0 ≤ m - k := by
      have h4 : (0:ℚ) ≤ ((m - k : ℤ) : ℚ) * pow2 (fexp f a) := by rw [← e]; linarith
      have := nonneg_of_mul_nonneg_left h4 hpos
      exact_mod_cast this
    rw [abs_of_nonneg hm0]
    have := le_abs_self m
    omega
  · unfold fexp; exact le_max_right _ _

/-- the logarithm of the multivariate gamma function -/
noncomputable def logMGamma (p : ℕ) (a : ℝ) : ℝ :=
  p * (p - 1) / 4 * Real.log Real.pi + ∑ j ∈ Finset.range p, Real.log (Real.Gamma (a - j / 2))

theorem logMGamma_succ (p : ℕ) (a : ℝ) :
    logMGamma (p + 1) a = Real.log Real.pi * p / 2 + Real.log (Real.Gamma a) + logMGamma p (a - 1 / 2) := by
  unfold logMGamma
  rw [Finset.sum_range_succ']
  have : ∀ j ∈ Finset.range p, Real.log (Real.Gamma (a - ((j + 1 : ℕ) : ℝ) / 2)) = Real.log (Real.Gamma (a - 1 / 2 - j / 2)) := by
    intro j _; congr 2; push_cast; ring
  rw [Finset.sum_congr rfl this]
  push_cast
  simp only [zero_div, sub_zero]
  ring

theorem log_pi_bounds : 1 ≤ Real.log Real.pi ∧ Real.log Real.pi ≤ 115 / 100 := by
  have h := LOG_PI_err
  have h3 : LOG_PI ≤ 1149 / 1000 := by decide +kernel
  have h4 : (1001 / 1000 : ℚ) ≤ LOG_PI := by decide +kernel
  have h3' := (Rat.cast_le (K := ℝ)).2 h3
  have h4' := (Rat.cast_le (K := ℝ)).2 h4
  push_cast at h h3' h4'
  have b := abs_le.1 h
  constructor <;> norm_num at b ⊢ <;> linarith [b.1, b.2]

theorem lm_head {p : ℕ} (h1 : 1 ≤ p) (h2 : p ≤ 4096) :
    ∃ t, Is (L LOG_PI * (i ((p:ℤ) + 1) - i 1) / i 2 : FV f) t ∧ |(t:ℝ) - Real.log Real.pi * p / 2| ≤ 3 * p * uro f := by
  obtain ⟨κ, i1, -, e⟩ := is_L_near (f := f) (q := LOG_PI) (by decide +kernel) (by decide +kernel)
  have hu := uro_pos_real f
  have hu7 := uro7_real f
  have hp1 : (1:ℝ) ≤ p := by exact_mod_cast h1
  have hp2 : (p:ℝ) ≤ 4096 := by exact_mod_cast h2
  have hκ : |(κ:ℝ) - Real.log Real.pi| ≤ 24 / 10 * uro f := by
    have h := LOG_PI_err
    have h3 : LOG_PI ≤ 1149 / 1000 := by decide +kernel
    have hup := uro_pos f
    have hu64 : (1 / 2 ^ 64 : ℚ) ≤ uro f := uro_ge f
    have e' : |κ - LOG_PI| ≤ 231 / 100 * uro f := by
      refine e.trans ?_
      have := mul_le_mul_of_nonneg_left h3 (show 0 ≤ 201 / 100 * uro f by positivity)
      linarith
    have e2 := (Rat.cast_le (K := ℝ)).2 e'
    have e3 := (Rat.cast_le (K := ℝ)).2 hu64
    push_cast at e2 e3 h
    have h4 := abs_add_le ((κ:ℝ) - LOG_PI) (LOG_PI - Real.log Real.pi)
    rw [sub_add_sub_cancel] at h4
    norm_num only at h e3 ⊢
    linarith
  obtain ⟨l1, l2⟩ := log_pi_bounds
  have ip : Is (i ((p:ℤ) + 1) - i 1 : FV f) (p:ℚ) := by
    have e : (((p:ℤ) + 1 : ℤ) : ℚ) - ((1:ℤ) : ℚ) = p := by push_cast; ring
    have hr : rnd f (p:ℚ) = p := by
      have := rep_int (f := f) (n := p) (by
        rw [abs_of_nonneg (by positivity)]
        have h24 : (2:ℤ) ^ 24 ≤ 2 ^ f.prec := by
          refine pow_le_pow_right₀ (by norm_num) ?_
          rcases f with ⟨⟨⟩, _⟩ <;> simp [Fmt.prec, FTy.prec]
        norm_num at h24
        omega)
      exact_mod_cast this
    have h := (is_i (f := f) (n := (p:ℤ) + 1) (by rw [abs_of_nonneg (by positivity)]; omega)).sub (is_i (n := 1) (by decide)) (by
      rw [e]
      refine nov ?_
      rw [abs_of_nonneg (by positivity)]
      have : (p:ℚ) ≤ 4096 := by exact_mod_cast h2
      norm_num
      linarith)
    rw [e, hr] at h
    exact h
  have bk := abs_le.1 hκ
  norm_num only at hu7
  have hκ1 : (κ:ℝ) ≤ 116 / 100 := by linarith
  have hκ0 : (0:ℝ) ≤ κ := by linarith
  have hkp : (κ:ℝ) * p ≤ 116 / 100 * p := mul_le_mul_of_nonneg_right hκ1 (by linarith)
  have hkp0 : 0 ≤ (κ:ℝ) * p := by positivity
  have n1 : overflows f (rnd f (κ * p)) = false := nov (by
    have : ((|κ * p| : ℚ) : ℝ) ≤ ((2 ^ 127 : ℚ) : ℝ) := by
      push_cast; rw [abs_of_nonneg hkp0]; norm_num only; linarith
    exact_mod_cast this)
  have e1 := rnd_all_real f (κ * p)
  push_cast at e1
  rw [abs_of_nonneg hkp0] at e1
  have iP := i1.mul ip n1
  generalize rnd f (κ * p) = x at *
  have bx := abs_le.1 e1
  have hukp := mul_le_mul_of_nonneg_left hkp hu.le
  have hup : uro f * (p:ℝ) ≤ 1 / 10000000 * p := mul_le_mul_of_nonneg_right hu7 (by linarith)
  have hup1 : (uro f:ℝ) ≤ uro f * p := by nlinarith
  have hx : |(x:ℝ) / 2| ≤ 59 / 100 * p := by
    rw [abs_le]; constructor <;> linarith
  have n2 : overflows f (rnd f (x / 2)) = false := nov (by
    have : ((|x / 2| : ℚ) : ℝ) ≤ ((2 ^ 127 : ℚ) : ℝ) := by
      push_cast; refine hx.trans ?_; norm_num only; linarith
    exact_mod_cast this)
  have e2 := rnd_all_real f (x / 2)
  push_cast at e2
  have iQ := iP.div (is_i (f := f) (n := 2) (by decide)) (by norm_num) n2
  refine ⟨rnd f (x / 2), iQ, ?_⟩
  have h3 := mul_le_mul_of_nonneg_left hx hu.le
  have h4 : |(x:ℝ) - Real.log Real.pi * p| ≤ 36 / 10 * (uro f * p) := by
    have e : (x:ℝ) - Real.log Real.pi * p = (x - κ * p) + (κ - Real.log Real.pi) * p := by ring
    rw [e]
    refine (abs_add_le _ _).trans ?_
    rw [abs_mul, abs_of_nonneg (show (0:ℝ) ≤ p by linarith)]
    have := mul_le_mul_of_nonneg_right hκ (show (0:ℝ) ≤ p by linarith)
    linarith
  have h5 : |(x:ℝ) / 2 - Real.log Real.pi * p / 2| ≤ 18 / 10 * (uro f * p) := by
    rw [← sub_div, abs_div, abs_of_pos (show (0:ℝ) < 2 by norm_num)]; linarith
  have h6 := abs_add_le (((rnd f (x / 2) : ℚ) : ℝ) - x / 2) ((x:ℝ) / 2 - Real.log Real.pi * p / 2)
  rw [sub_add_sub_cancel] at h6
  linarith

theorem logMGamma_abs {S0 : ℝ} (P : ℕ) : ∀ (p : ℕ) (a : ℝ), p ≤ P → (p:ℝ) / 2 ≤ a →
    (∀ x : ℝ, 1 / 2 ≤ x → x ≤ a → |Real.log (Real.Gamma x)| ≤ S0) → |logMGamma p a| ≤ p * (S0 + P) := by
  intro p
  induction p with
  | zero => intro a _ _ _; simp [logMGamma]
  | succ p ih =>
    intro a h1 h2 h3
    have h1' : ((p:ℝ) + 1) ≤ P := by exact_mod_cast h1
    have hp0 : (0:ℝ) ≤ p := by positivity
    push_cast at h2
    have := ih (a - 1 / 2) (by omega) (by linarith) (fun x hx hx2 => h3 x hx (by linarith))
    rw [logMGamma_succ]
    have h4 := h3 a (by linarith) le_rfl
    obtain ⟨l1, l2⟩ := log_pi_bounds
    have h5 : |Real.log Real.pi * p / 2| ≤ P := by
      rw [abs_of_nonneg (by positivity)]
      nlinarith
    refine (abs_add_le _ _).trans ?_
    have := abs_add_le (Real.log Real.pi * p / 2) (Real.log (Real.Gamma a))
    push_cast
    linarith

/-- one level of the recursion, over the reals -/
theorem lm_step {u S0 P W E B p t T l G ρ R c r : ℝ} (hu : 0 < u) (hu7 : u ≤ 1 / 10 ^ 7) (hp1 : 1 ≤ p) (hpP : p + 1 ≤ P) (hP : P ≤ 4096)
    (hS : 0 ≤ S0) (hW : W = P * (S0 + P)) (hE : E = (111 + 22 * S0) * u + 18 / 10 ^ 15) (hB : B = E + 7 * W * u)
    (ht : |t - T| ≤ 3 * p * u) (hT : |T| ≤ 6 / 10 * p) (hl : |l - G| ≤ E) (hG : |G| ≤ S0) (hρ : |ρ - R| ≤ p * B) (hR : |R| ≤ W)
    (hc : |c - (t + l)| ≤ u * |t + l| + u / 1000) (hr : |r - (c + ρ)| ≤ u * |c + ρ| + u / 1000) :
    |r - (T + G + R)| ≤ (p + 1) * B ∧ |t + l| ≤ 2 * W ∧ |c + ρ| ≤ 3 * W := by
  have hP1 : 2 ≤ P := by linarith
  have hSW : S0 ≤ W := by rw [hW]; nlinarith
  have hPW : P ≤ W / 2 := by rw [hW]; nlinarith
  have hSP : S0 + P ≤ W / 2 := by rw [hW]; nlinarith
  have hW0 : 0 ≤ W := by linarith
  have hSu : S0 * u ≤ S0 * (1 / 10 ^ 7) := mul_le_mul_of_nonneg_left hu7 hS
  have hWu : W * u ≤ W * (1 / 10 ^ 7) := mul_le_mul_of_nonneg_left hu7 hW0
  have hpu : p * u ≤ p * (1 / 10 ^ 7) := mul_le_mul_of_nonneg_left hu7 (by linarith)
  have hE1 : E ≤ 1 / 1000 * (S0 + P) := by rw [hE]; norm_num only at *; linarith
  have hpE : p * E ≤ 1 / 10 ^ 4 * W := by
    have h1 : p * E ≤ P * E := mul_le_mul_of_nonneg_right (by linarith) ((abs_nonneg _).trans hl)
    have h2 : E ≤ 1 / 10 ^ 4 * (S0 + P) := by rw [hE]; norm_num only at *; linarith
    have h3 := mul_le_mul_of_nonneg_left h2 (show 0 ≤ P by linarith)
    rw [hW]; linarith
  have hpB : p * B ≤ 1 / 300 * W := by
    have h1 : p * (7 * W * u) ≤ 4096 * (7 * W * u) := mul_le_mul_of_nonneg_right (by linarith) (by positivity)
    rw [hB, mul_add]
    norm_num only at *
    linarith
  have a1 := abs_sub_abs_le_abs_sub t T
  have a2 := abs_sub_abs_le_abs_sub l G
  have a3 := abs_sub_abs_le_abs_sub ρ R
  have a4 := abs_add_le t l
  have h1 : |t + l| ≤ 101 / 100 * (S0 + P) := by norm_num only at *; linarith
  have h2 := mul_le_mul_of_nonneg_left h1 hu.le
  have h2' := mul_le_mul_of_nonneg_left hSP hu.le
  have a5 := abs_sub_abs_le_abs_sub c (t + l)
  have a6 := abs_add_le c ρ
  have h3 : |c + ρ| ≤ 2 * W := by norm_num only at *; linarith
  have h4 := mul_le_mul_of_nonneg_left h3 hu.le
  have h5 : |r - (T + G + R)| ≤ |r - (c + ρ)| + |c - (t + l)| + |t - T| + |l - G| + |ρ - R| := by
    have e : r - (T + G + R) = (r - (c + ρ)) + (c - (t + l)) + (t - T) + (l - G) + (ρ - R) := by ring
    rw [e]
    refine (abs_add_le _ _).trans (add_le_add ?_ le_rfl)
    refine (abs_add_le _ _).trans (add_le_add ?_ le_rfl)
    refine (abs_add_le _ _).trans (add_le_add ?_ le_rfl)
    exact abs_add_le _ _
  have hWu0 : 0 ≤ W * u := by positivity
  have hpW : p * u ≤ W / 2 * u := mul_le_mul_of_nonneg_right (by linarith) hu.le
  have huW : u ≤ W * u := by nlinarith
  refine ⟨?_, by linarith, by linarith⟩
  rw [add_mul, one_mul]
  refine h5.trans ?_
  have : B = E + 7 * W * u := hB
  linarith

theorem qlog_le22 {A : ℝ} (h0 : 0 ≤ A) (h : A ≤ 2 ^ 22) : A * Real.log (A + 6) ≤ 2 ^ 30 := by
  have h3 : Real.log (A + 6) ≤ 2 ^ 7 := by
    rw [Real.log_le_iff_le_exp (by linarith)]
    refine le_trans ?_ (Real.exp_le_exp.2 (show (100:ℝ) ≤ 2 ^ 7 by norm_num))
    have e : Real.exp 100 = Real.exp 1 ^ 100 := by rw [← Real.exp_nat_mul]; norm_num
    rw [e]
    have : (2:ℝ) ^ 100 ≤ Real.exp 1 ^ 100 := pow_le_pow_left₀ (by norm_num) (by have := Real.exp_one_gt_d9; linarith) 100
    norm_num only at this h ⊢
    linarith
  have := mul_le_mul h h3 (Real.log_nonneg (by linarith)) (by positivity)
  norm_num only at this ⊢
  linarith

theorem lm_main (hf : f.exact = false) {A S0 W E B : ℝ} {P : ℕ} (hP : P ≤ 4096) (hA0 : 0 ≤ A) (hA : A ≤ 2 ^ 22) (hS : S0 = A * Real.log (A + 6))
    (hW : W = P * (S0 + P)) (hE : E = (111 + 22 * S0) * uro f + 18 / 10 ^ 15) (hB : B = E + 7 * W * uro f) :
    ∀ p : ℕ, p + 1 ≤ P → ∀ (a : ℚ) (z : Bool), Valid (fin a z : FV f) → ((p:ℚ) + 1) / 2 ≤ a → (a:ℝ) ≤ A →
      ∃ r w, lmgamma (fin a z : FV f) ((p:ℤ) + 1) = .ok (fin r w) ∧ |(r:ℝ) - logMGamma (p + 1) a| ≤ ((p:ℝ) + 1) * B := by
  have hu := uro_pos_real f
  have hu7 := uro7_real f
  have hS0 : 0 ≤ S0 := by rw [hS]; exact mul_nonneg hA0 (Real.log_nonneg (by linarith))
  have hS30 : S0 ≤ 2 ^ 30 := by rw [hS]; exact qlog_le22 hA0 hA
  have hG : ∀ x : ℝ, 1 / 2 ≤ x → x ≤ A → |Real.log (Real.Gamma x)| ≤ S0 := fun x h1 h2 => by
    rw [hS]; exact (log_gamma_abs_le h1).trans (qlog_mono (by linarith) h2)
  have hlg : ∀ (a : ℚ) (z : Bool), Valid (fin a z : FV f) → 1 / 2 ≤ a → (a:ℝ) ≤ A →
      ∃ l w, lgamma (fin a z : FV f) = .ok (fin l w) ∧ |(l:ℝ) - Real.log (Real.Gamma a)| ≤ E := by
    intro a z hv h1 h2
    have h1' : (1 / 2 : ℝ) ≤ a := by have := (Rat.cast_le (K := ℝ)).2 h1; push_cast at this; exact this
    have h3 : a ≤ 2 ^ 90 := by
      have : (a:ℝ) ≤ ((2 ^ 90 : ℚ) : ℝ) := by push_cast; norm_num only at hA ⊢; linarith
      exact_mod_cast this
    obtain ⟨l, w, e, b⟩ := C72_accuracy hf a z hv h1 h3
    refine ⟨l, w, e, b.trans ?_⟩
    rw [div_eq_mul_one_div _ ((2:ℝ) ^ f.prec), ← uro_eq, hE]
    have h4 := qlog_mono (by linarith) h2
    rw [← hS] at h4
    have := mul_le_mul_of_nonneg_right h4 hu.le
    linarith
  intro p
  induction p with
  | zero =>
    intro _ a z hv h1 h2
    obtain ⟨l, w, e, b⟩ := hlg a z hv (by push_cast at h1; linarith) h2
    refine ⟨l, w, ?_, ?_⟩
    · rw [show (((0:ℕ):ℤ) + 1) = 1 from rfl, (C55_lmgamma hf _ 1).2.1, e]
    · rw [logMGamma_succ]
      have hW0 : 0 ≤ W := by rw [hW]; positivity
      have hB0 : E ≤ B := by rw [hB]; have : 0 ≤ 7 * W * uro f := by positivity
                             linarith
      simp only [logMGamma, Nat.cast_zero, Finset.range_zero, Finset.sum_empty, mul_zero, zero_div, zero_mul, zero_add, add_zero, one_mul]
      exact b.trans hB0
  | succ p ih =>
    intro hpP a z hv h1 h2
    push_cast at h1
    have hpq : (0:ℚ) ≤ p := by positivity
    have a1 : 1 ≤ a := by linarith
    have a22 : a ≤ 2 ^ 22 := by
      have : (a:ℝ) ≤ ((2 ^ 22 : ℚ) : ℝ) := by push_cast; exact h2.trans hA
      exact_mod_cast this
    have ia : Is ((fin a z : FV f) - d 0.5) (a - 1 / 2) := by
      have h := (is_fin (f := f) a z).sub is_d_half (nov (by rw [abs_le]; norm_num at a22 ⊢; constructor <;> linarith))
      rwa [show rnd f (a - 1 / 2) = a - 1 / 2 from rep_sub_half hf hv.rep a1 a22] at h
    obtain ⟨l, ρ', el, er, et⟩ := (C55_lmgamma hf (fin a z : FV f) (((p + 1 : ℕ) : ℤ) + 1)).2.2.2 (by push_cast; omega) (by simp)
    obtain ⟨l', w, el', bl⟩ := hlg a z hv (by linarith) h2
    obtain rfl : l = fin l' w := by rw [el] at el'; injection el'
    obtain ⟨z2, e2⟩ := ia
    have hv2 : Valid (fin (a - 1 / 2) z2 : FV f) := by rw [← e2]; exact valid_sub _ _
    obtain ⟨ρ, w2, e3, b3⟩ := ih (by omega) (a - 1 / 2) z2 hv2 (by linarith) (by push_cast; linarith)
    rw [e2, show (((p + 1 : ℕ) : ℤ) + 1 - 1) = (p:ℤ) + 1 by push_cast; ring, e3] at er
    injection er with er
    subst er
    obtain ⟨t, it, bt⟩ := lm_head (f := f) (p := p + 1) (by omega) (by omega)
    have hR := logMGamma_abs (S0 := S0) P (p + 1) ((a:ℝ) - 1 / 2) (by omega) (by
      have := (Rat.cast_le (K := ℝ)).2 h1; push_cast at this ⊢; linarith) (fun x hx hx2 => hG x hx (by linarith))
    have hpP' : ((p + 1 : ℕ) : ℝ) + 1 ≤ P := by exact_mod_cast hpP
    have hP' : (P:ℝ) ≤ 4096 := by exact_mod_cast hP
    have hR' : |logMGamma (p + 1) ((a:ℝ) - 1 / 2)| ≤ W := by
      refine hR.trans ?_
      rw [hW]
      exact mul_le_mul_of_nonneg_right (by linarith) (by positivity)
    have hpp : (1:ℝ) ≤ ((p + 1 : ℕ) : ℝ) := by push_cast; linarith [show (0:ℝ) ≤ p by positivity]
    have hT : |Real.log Real.pi * ((p + 1 : ℕ) : ℝ) / 2| ≤ 6 / 10 * ((p + 1 : ℕ) : ℝ) := by
      obtain ⟨l1, l2⟩ := log_pi_bounds
      rw [abs_of_nonneg (by positivity)]
      nlinarith
    have hGa := hG a (by
      have : (1:ℝ) ≤ a := by exact_mod_cast a1
      linarith) h2
    have b3' : |(ρ:ℝ) - logMGamma (p + 1) ((a:ℝ) - 1 / 2)| ≤ ((p + 1 : ℕ) : ℝ) * B := by
      push_cast at b3 ⊢; exact b3
    have ec := rnd_all_real f (t + l')
    have err := rnd_all_real f (rnd f (t + l') + ρ)
    push_cast at ec err
    obtain ⟨k1, k2, k3⟩ := lm_step hu hu7 hpp hpP' hP' hS0 hW hE hB bt hT bl hGa b3' hR' ec err
    have hWb : W ≤ 2 ^ 60 := by
      rw [hW]
      have := mul_le_mul hP' (show S0 + P ≤ 2 ^ 31 by norm_num only at hS30 ⊢; linarith) (by positivity) (by norm_num)
      norm_num only at this ⊢
      linarith
    have n1 : overflows f (rnd f (t + l')) = false := nov (by
      have : ((|t + l'| : ℚ) : ℝ) ≤ ((2 ^ 127 : ℚ) : ℝ) := by push_cast; norm_num only at hWb ⊢; linarith
      exact_mod_cast this)
    have n2 : overflows f (rnd f (rnd f (t + l') + ρ)) = false := nov (by
      have : ((|rnd f (t + l') + ρ| : ℚ) : ℝ) ≤ ((2 ^ 127 : ℚ) : ℝ) := by push_cast; norm_num only at hWb ⊢; linarith
      exact_mod_cast this)
    obtain ⟨w3, ew3⟩ := (it.add (is_fin (f := f) l' w) n1).add (is_fin (f := f) ρ w2) n2
    refine ⟨rnd f (rnd f (t + l') + ρ), w3, ?_, ?_⟩
    · rw [et]; exact congrArg Except.ok ew3
    · rw [logMGamma_succ]; exact k1

/-- C76: error of `lmgamma` for a whole `p` and `a >= p / 2`. -/
theorem C76_accuracy (hf : f.exact = false) (a : ℚ) (z : Bool) (p : ℕ) (hx : Valid (fin a z : FV f)) (hp : 1 ≤ p) (hp2 : p ≤ 4096)
    (h1 : (p:ℚ) / 2 ≤ a) (h2 : a ≤ 2 ^ 22) :
    ∃ r w, lmgamma (fin a z : FV f) p = .ok (fin r w) ∧
      |(r:ℝ) - (p * (p - 1) / 4 * Real.log Real.pi + ∑ j ∈ Finset.range p, Real.log (Real.Gamma (a - j / 2)))| ≤
        p * ((111 + 22 * (a * Real.log (a + 6)) + 7 * (p * (a * Real.log (a + 6) + p))) / 2 ^ f.prec + 18 / 10 ^ 15) := by
  obtain ⟨n, rfl⟩ : ∃ n, p = n + 1 := ⟨p - 1, by omega⟩
  have hn : (0:ℚ) ≤ n := by positivity
  push_cast at h1
  obtain ⟨r, w, e, b⟩ := lm_main hf (A := a) hp2 (by
      have : 0 ≤ a := by linarith
      exact_mod_cast this) (by have := (Rat.cast_le (K := ℝ)).2 h2; push_cast at this; exact this) rfl rfl rfl rfl n le_rfl a z hx h1 le_rfl
  refine ⟨r, w, by push_cast; exact e, b.trans (le_of_eq ?_)⟩
  rw [uro_eq]
  push_cast
  ring

/-- `lmgamma(5.0, 3)` in double -/
example : ∃ r w, lmgamma (fin 5 false : FV binary64) (3:ℕ) = .ok (fin r w) ∧
    |(r:ℝ) - logMGamma 3 ((5:ℚ):ℝ)| ≤ 1 / 10 ^ 11 := by
  obtain ⟨r, w, e, b⟩ := C76_accuracy (f := binary64) rfl 5 false 3 (by decide +kernel) (by norm_num) (by norm_num) (by norm_num) (by norm_num)
  refine ⟨r, w, e, b.trans ?_⟩
  have hl : Real.log (((5:ℚ):ℝ) + 6) ≤ 10 := by
    have := Real.log_le_sub_one_of_pos (show (0:ℝ) < ((5:ℚ):ℝ) + 6 by norm_num)
    norm_num at this ⊢; linarith
  rw [show binary64.prec = 53 from rfl]
  norm_num at hl ⊢
  linarith

end Gcem.Props
