import Verif.Props.Incomplete
import Verif.Props.Fmod
import Verif.Props.PowFloat

/-!
# C59: NaN propagation
-/

namespace Gcem.Props
open Gcem FV
variable {f : Fmt}

/-- C59: every one-argument function returns NaN on NaN. -/
theorem C59_one_argument :
    fabs (nan : FV f) = nan ∧ inv_sqrt (nan : FV f) = nan ∧ atan (nan : FV f) = nan ∧ tanh (nan : FV f) = nan ∧
    ∀ F ∈ [floor, ceil, trunc, round, sqrt, exp, expm1, log, log1p, log2, log10, tan, sin, cos, asin, acos,
        sinh, cosh, asinh, acosh, atanh, erf, erf_inv, lgamma, tgamma], F (nan : FV f) = .ok nan := by
  refine ⟨by simp, C28_special.1, atan_nan, tanh_nan, ?_⟩
  have hexp : exp (nan : FV f) = .ok nan := C30_special.1
  have hlog : log (nan : FV f) = .ok nan := C35_special.1
  have htan : tan (nan : FV f) = .ok nan := tan_nan
  simp only [List.forall_mem_cons, List.not_mem_nil, false_imp_iff, implies_true, and_true]
  refine ⟨floor_check_nan, ceil_check_nan, trunc_check_nan, round_check_nan, C25_special.1, hexp, ?_, hlog, ?_, ?_, ?_,
    htan, ?_, ?_, asin_nan, ?_, ?_, ?_, ?_, ?_, ?_, ?_, ?_, ?_, ?_⟩
  · exact C34_special.1
  · exact C39_special.1
  · unfold log2; simp only [bind, Except.bind, hlog]; rfl
  · unfold log10; simp only [bind, Except.bind, hlog]; rfl
  · simp [sin, sin_check, limNaN]
  · simp [cos, cos_check, limNaN]
  · simp [acos, acos_check, limNaN]
  · simp [sinh, sinh_check, limNaN]
  · simp [cosh, cosh_compute, limNaN]
  · simp [asinh, asinh_compute, limNaN]
  · simp [acosh, acosh_compute, limNaN]
  · simp [atanh, atanh_check, limNaN]
  · simp [erf, erf_check, limNaN]
  · simp [erf_inv, erf_inv_begin, limNaN]
  · simp [lgamma, lgamma_check, limNaN]
  · rfl

/-- C59: every function of several arguments returns NaN as soon as one argument is NaN, whatever the others
are — including `pow(1, NaN)`, `pow(NaN, 0)` and `hypot(inf, NaN)`, which the C library defines as `1`, `1` and
`+inf`.  (For `max` and `min` see C14.) -/
theorem C59_two_arguments (hf : f.exact = false) (x y : FV f) (hx : Valid x) (hy : Valid y) (h : x = nan ∨ y = nan) :
    atan2 y x = nan ∧ fmod x y = .ok nan ∧ hypot x y = .ok nan ∧ pow x y = .ok nan ∧ beta x y = .ok nan ∧
    lbeta x y = .ok nan ∧ log_binomial_coef x y = .ok nan ∧ incomplete_gamma x y = .ok nan ∧
    incomplete_gamma_inv x y = .ok nan := by
  have hn : lgamma (nan : FV f) = .ok nan := (C53_lgamma_special hf).1
  have hin : ∀ x : FV f, x + nan = nan ∧ nan + x = nan ∧ x - nan = nan ∧ (nan : FV f) - x = nan := fun x =>
    ⟨add_nan x, rfl, sub_nan x, rfl⟩
  refine ⟨C46_nan y x h.symm, C23_fmod_special x y (by tauto), ?_, ?_, ?_, ?_, ?_, (C57_boundary x y).1 h,
    (C58_gamma_boundary x y).1 h⟩
  · rcases h with rfl | rfl
    · exact (C29_special.1 y).1
    · exact (C29_special.1 x).2
  · rcases h with rfl | rfl
    · unfold pow pow_check pow_dbl
      rw [if_neg nan_lt, C35_special.1]
      simp only [bind, Except.bind]
      rw [FV.mul_nan]; exact C30_special.1
    · unfold pow pow_check pow_dbl
      split
      · rfl
      · obtain ⟨l, hl⟩ := C35_total hf x hx
        rw [hl]
        exact C30_special.1
  · rcases h with rfl | rfl
    · exact (C54_nan hf y).2.2.1
    · exact (C54_nan hf x).2.2.2
  · rcases h with rfl | rfl
    · exact (C54_nan hf y).1
    · exact (C54_nan hf x).2.1
  · unfold log_binomial_coef
    rcases h with rfl | rfl
    · obtain ⟨b, hb⟩ := C53_lgamma_total hf (y + i 1)
      rw [(hin _).2.1, hn, hb, (hin _).2.2.2, (hin _).2.1, hn]; rfl
    · obtain ⟨a, ha⟩ := C53_lgamma_total hf (x + i 1)
      rw [ha, (hin _).2.1, hn, (hin _).2.2.1, (hin _).2.1, hn]
      simp only [bind, Except.bind]
      rw [(hin _).1, (hin _).2.2.1]

/-- C59: the three-argument functions -/
theorem C59_three_arguments (a b z : FV f) (h : a = nan ∨ b = nan ∨ z = nan) :
    incomplete_beta a b z = .ok nan ∧ incomplete_beta_inv a b z = .ok nan :=
  ⟨(C56_boundary a b z).1 h, (C58_beta_boundary a b z).1 h⟩

theorem pow_recur_nan (n : ℕ) : ∀ (v : FV f), 1 ≤ n ∨ v = nan → pow_integral_compute_recur nan v n = nan := by
  induction n using Nat.strong_induction_on with
  | _ n ih =>
    intro v h
    rw [pow_integral_compute_recur]
    split_ifs with h1 h2 h2
    · exact ih _ (by omega) _ (Or.inr (FV.mul_nan _))
    · exact ih _ (by omega) _ (Or.inl (by omega))
    · exact FV.mul_nan _
    · rcases h with h | h
      · omega
      · exact h

/-- C59: `lmgamma`, and the powers with integer exponents: exponent zero is the one exception (as in the C
library); the extreme exponents of the exponent type are covered by `C11_limits`. -/
theorem C59_integer_parameter (p : ℤ) : lmgamma (nan : FV f) p = .ok nan ∧
    ∀ (lo : ℤ) (hi : ℕ), p ≠ 0 → p ≠ lo → p ≠ hi → -p ≠ hi → pow_integral_compute lo hi (nan : FV f) p = nan := by
  constructor
  · unfold lmgamma; rw [lmgamma_recur, if_pos (by simp)]; rfl
  · intro lo hi h0 h1 h2 h3
    have key : ∀ n : ℕ, n ≠ 0 → n ≠ hi → pow_integral_nonneg (nan : FV f) n hi = nan := by
      intro n hn hh
      unfold pow_integral_nonneg
      split_ifs
      · simp
      · simp
      · rfl
      · exact pow_recur_nan n _ (Or.inl (by omega))
    unfold pow_integral_compute
    split_ifs with h4
    · rw [key _ (by omega) (by omega)]; simp
    · exact key _ (by omega) (by omega)

example : pow (fin 1 false : FV binary64) nan = .ok nan ∧ pow (nan : FV binary64) (fin 0 false) = .ok nan ∧
    hypot (inf false : FV binary64) nan = .ok nan :=
  ⟨(C59_two_arguments rfl _ _ (by decide +kernel) valid_nan (Or.inr rfl)).2.2.2.1,
   (C59_two_arguments rfl _ _ valid_nan (by decide +kernel) (Or.inl rfl)).2.2.2.1,
   (C59_two_arguments rfl _ _ (valid_inf _) valid_nan (Or.inr rfl)).2.2.1⟩

example : pow_integral_int (nan : FV binary64) (-5) = nan :=
  (C59_integer_parameter (-5)).2 _ _ (by decide) (by decide) (by decide) (by decide)
example : tgamma (nan : FV binary32) = .ok nan := C59_one_argument.2.2.2.2 _ (by simp)

end Gcem.Props
