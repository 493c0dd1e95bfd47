import Verif.Props.Incomplete

/-! # C102: quantiles of the gamma distribution that are not numbers -/

namespace Gcem.Props
open FV

variable {f : Fmt}

theorem if_gamma_nan (a : FV f) : incomplete_gamma a nan = .ok nan := by
  unfold incomplete_gamma incomplete_gamma_check
  rw [if_pos (by unfold any_nan; simp)]; rfl

theorem if_halley_nan (r : FV f) : halley nan r = nan := by unfold halley; simp

theorem if_log_nan : log (nan : FV f) = .ok nan := by unfold log log_check; rw [if_pos (by simp)]; rfl

theorem if_exp_nan : exp (nan : FV f) = .ok nan := by unfold exp exp_check; rw [if_pos (by simp)]; rfl

theorem if_log_neg {v : FV f} (h : v < i 0) : log v = .ok nan := by
  unfold log log_check
  split_ifs <;> rfl

/-- once NaN, always NaN -/
theorem if_recur_nan (a p lg d : FV f) : ∀ n, incomplete_gamma_inv_recur a p lg n nan d = .ok nan := by
  intro n
  induction n generalizing d with
  | zero =>
    unfold incomplete_gamma_inv_recur incomplete_gamma_inv_ratio_val_1
    simp only [if_gamma_nan, bind, Except.bind, nan_sub, nan_div, if_halley_nan, sub_nan]
  | succ n ih =>
    unfold incomplete_gamma_inv_recur incomplete_gamma_inv_ratio_val_1 incomplete_gamma_inv_deriv_1
    simp only [if_gamma_nan, if_log_nan, bind, Except.bind, nan_sub, nan_div, if_halley_nan, sub_nan, mul_nan, add_nan, if_exp_nan, ih]

/-- C102: an iterate below zero is never recovered from.  With at least two iterations to go the result is NaN,
or the call is undefined. -/
theorem C102_negative_iterate (hf : f.exact = false) {a v : FV f} (p lg d1 : FV f) (ha : Valid a) (hv : Valid v) (h : v < i 0) (n : ℕ) :
    incomplete_gamma_inv_recur a p lg (n + 2) v d1 = .ok nan ∨ incomplete_gamma_inv_recur a p lg (n + 2) v d1 = .error .castRange := by
  unfold incomplete_gamma_inv_recur incomplete_gamma_inv_ratio_val_1 incomplete_gamma_inv_deriv_1
  have o := C57_outcome hf ha hv
  rcases e : incomplete_gamma a v with u | w
  · rw [e] at o; have : u = .castRange := o
    subst this; right; rfl
  simp only [if_log_neg h, bind, Except.bind, mul_nan, add_nan, nan_sub, if_exp_nan]
  generalize hv' : v - halley ((w - p) / d1) (incomplete_gamma_inv_ratio_val_2 v a d1) = v'
  have hv2 : Valid v' := hv' ▸ valid_sub _ _
  unfold incomplete_gamma_inv_recur incomplete_gamma_inv_ratio_val_1
  have o := C57_outcome hf ha hv2
  rcases e : incomplete_gamma a v' with u | w
  · rw [e] at o; have : u = .castRange := o
    subst this; right; rfl
  have o2 : OkV (incomplete_gamma_inv_deriv_1 v' a lg) := by
    unfold incomplete_gamma_inv_deriv_1
    exact (okv_log hf hv2).bind fun _ _ => okv_exp hf (valid_sub _ _)
  simp only [bind, Except.bind, div_nan, if_halley_nan, sub_nan]
  rcases e2 : incomplete_gamma_inv_deriv_1 v' a lg with u | w2
  · rw [e2] at o2; have : u = .castRange := o2
    subst this; right; rfl
  left
  exact if_recur_nan _ _ _ _ _

/-- C102 (`double`): the quantiles of the gamma distribution of shape 2 at one in a million (`0.001414…`) and of shape 5 (`0.169…`)
come out as NaN. -/
theorem C102_nan : incomplete_gamma_inv (i 2 : FV binary64) (d 0.000001) = .ok nan ∧
    incomplete_gamma_inv (i 5 : FV binary64) (d 0.000001) = .ok nan := ⟨by decide +kernel, by decide +kernel⟩

/-- C102 (`double`): with shape 2 and `p = 0.99999999` (true quantile `21.4…`) the call is undefined. -/
theorem C102_undefined : incomplete_gamma_inv (i 2 : FV binary64) (d 0.99999999) = .error .castRange := by decide +kernel

/-- the first two steps for shape 2 lead from `1/10000` to a negative number -/
example : incomplete_gamma_inv_recur (i 2 : FV binary64) (d 0.000001) (i 0) 5 (i (-1)) (i 1) = .ok nan ∨
    incomplete_gamma_inv_recur (i 2 : FV binary64) (d 0.000001) (i 0) 5 (i (-1)) (i 1) = .error .castRange :=
  C102_negative_iterate rfl _ _ _ (valid_i _) (valid_i _) (by decide +kernel) 3

end Gcem.Props
