import Verif.Props.IgammaInvSteps

/-! # C102: a whole range of probabilities at which the gamma quantile is not a number -/

namespace Gcem.Props
open FV

/-- C102 (`double`): for shape 2 and every probability between `3e-7` and `1e-6` the call does not return a number: the result is NaN,
or the behaviour is undefined. The quantile itself lies between `0.0007` and `0.0015`. -/
theorem C102_every (p : ℚ) (z : Bool) (hp : Valid (fin p z : FV binary64)) (p1 : 3 / 10 ^ 7 ≤ p) (p2 : p ≤ 1 / 10 ^ 6) :
    incomplete_gamma_inv (i 2) (fin p z : FV binary64) = .ok nan ∨ incomplete_gamma_inv (i 2) (fin p z : FV binary64) = .error .castRange := by
  have hst := ie_start hp (by linarith) p2
  have h1 : ∃ q1 v zv, incomplete_gamma_inv_ratio_val_1 (d 1e-4 : FV binary64) (i 2) (fin p z) (fin (7377959796613127/73786976294838206464) false) = .ok q1 ∧
      (d 1e-4 - halley q1 (fin 9999 false) : FV binary64) = fin v zv ∧ 1 / 400 ≤ v ∧ v ≤ 84 / 10 ^ 4 ∧ 26 / 10 ^ 7 ≤ 49 / 100 * v ^ 2 - p := by
    rcases le_total p (5 / 10 ^ 7) with h | h
    · obtain ⟨q1, e, b⟩ := ie_step1 (p := p) (z := z) 3 5 (-544479) (-324136) (-5318243) (-3164317) (-4433480) (-2634962) 2740189 4541927
        (by norm_num at p1 ⊢; exact p1) (by norm_num at h ⊢; exact h) (by norm_num) (by norm_num) (by norm_num) (by norm_num) (by norm_num) (by norm_num)
      obtain ⟨v, zv, ev, v1, v2⟩ := b.fin
      norm_num at v1 v2
      exact ⟨q1, v, zv, e, ev, by linarith, by linarith, by nlinarith⟩
    · obtain ⟨q1, e, b⟩ := ie_step1 (p := p) (z := z) 5 10 (-1094234) (-544038) (-10688026) (-5311801) (-8908836) (-4424890) 4530117 9018357
        (by norm_num at h ⊢; exact h) (by norm_num at p2 ⊢; exact p2) (by norm_num) (by norm_num) (by norm_num) (by norm_num) (by norm_num) (by norm_num)
      obtain ⟨v, zv, ev, v1, v2⟩ := b.fin
      norm_num at v1 v2
      exact ⟨q1, v, zv, e, ev, by linarith, by linarith, by nlinarith⟩
  obtain ⟨q1, v, zv, e1, ev, v1, v2, hE⟩ := h1
  have hvv : Valid (fin v zv : FV binary64) := ev ▸ valid_sub _ _
  obtain ⟨q2, e2, neg⟩ := ie_step2 (z := z) hvv v1 v2 (by linarith) hE
  have mn : minNormal binary64 ≤ 1 / 10 ^ 7 := by decide +kernel
  have lm : (limMin : FV binary64) = fin (minNormal binary64) false := by decide +kernel
  have i1 : (i 1 : FV binary64) = fin 1 false := by decide +kernel
  have h3 : ¬ (limMin : FV binary64) > fabs (i 1 - fin p z) := by
    rw [lm, i1]
    have hb : Bd (fin 1 false - fin p z : FV binary64) (((1:ℤ):ℚ) / 2 ^ 1) (((2:ℤ):ℚ) / 2 ^ 1) :=
      Bd.sub (a := 1) (b := 1) (a' := 0) (b' := 1 / 2) 1 2 1 ⟨1, is_fin _ _, le_refl _, le_refl _⟩ ⟨p, is_fin _ _, by linarith, by linarith⟩ (by norm_num) (by norm_num) (by norm_num)
        (by norm_num) (by norm_num)
    obtain ⟨x, ix, x1, x2⟩ := hb
    intro hc
    have := (ix.fabs.lt_iff (is_fin (f := binary64) (minNormal binary64) false)).1 hc
    norm_num at x1
    rw [abs_of_pos (by linarith)] at this
    linarith
  have h0 : any_nan (i 2) (fin p z : FV binary64) = false := by
    rw [show (i 2 : FV binary64) = fin 2 false by decide +kernel]; unfold any_nan; simp
  rw [ie_top h0 (by rw [lm, gt_iff_lt, fin_lt]; linarith) (by rw [i1, gt_iff_lt, fin_lt]; linarith) h3 (by decide +kernel) hst ie_lg ie_D,
    show INCML_GAMMA_INV_MAX_ITER = 34 + 1 from rfl, ie_recur 34 e1 ie_D, ie_R2, ev]
  have o2 : OkV (incomplete_gamma_inv_deriv_1 (fin v zv : FV binary64) (i 2) (i 0)) := by
    unfold incomplete_gamma_inv_deriv_1
    exact (okv_log rfl hvv).bind fun _ _ => okv_exp rfl (valid_sub _ _)
  rcases e3 : incomplete_gamma_inv_deriv_1 (fin v zv : FV binary64) (i 2) (i 0) with u | D
  · rw [e3] at o2; have : u = .castRange := o2
    subst this; right; exact ie_recur_error 33 e2 e3
  · rw [ie_recur 33 e2 e3]
    exact C102_negative_iterate rfl _ _ D (valid_i _) (valid_sub _ _) neg 31

/-- `p = 2^-20` -/
example : incomplete_gamma_inv (i 2) (fin (1 / 2 ^ 20) false : FV binary64) = .ok nan ∨
    incomplete_gamma_inv (i 2) (fin (1 / 2 ^ 20) false : FV binary64) = .error .castRange :=
  C102_every _ _ (by decide +kernel) (by norm_num) (by norm_num)

end Gcem.Props
