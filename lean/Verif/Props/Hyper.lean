import Verif.Props.Atan

/-!
# C48, C49, C50: hyperbolic functions and their inverses
-/

namespace Gcem.Props
open Gcem FV
variable {f : Fmt}

/-! ## C48 -/

/-- C48: `tanh` is odd bit for bit, except that arguments below the least normal value give `+0`. -/
theorem C48_odd (x : FV f) : (¬ (limMin : FV f) > fabs x → tanh (-x) = -tanh x) ∧ tanh (-x) ≃ -tanh x :=
  odd_shape tanh tanh_begin (fun _ => rfl) x

theorem tanh_nan : tanh (nan : FV f) = nan := by simp [tanh, tanh_check, limNaN]

/-- C48: special values; infinities give NaN (not `±1`). -/
theorem C48_special (s : Bool) :
    tanh (nan : FV f) = nan ∧
    (∀ (q : ℚ) (z : Bool), |q| < minNormal f → tanh (fin q z : FV f) = fin 0 false) ∧
    tanh (inf s : FV binary32) = nan ∧ tanh (inf s : FV binary64) = nan ∧ tanh (inf s : FV x87) = nan := by
  refine ⟨tanh_nan, fun q z h => ?_, by cases s <;> decide +kernel, by cases s <;> decide +kernel,
    by cases s <;> decide +kernel⟩
  unfold tanh tanh_check
  rw [if_neg (by simp), if_pos (limMin_gt_fabs.2 h), i_zero]

/-- C48 (negation of boundedness): `tanh(30.0)` is above `1` and `tanh(1e6)` is above `1587`. -/
theorem C48_not_bounded :
    (∃ r, tanh (fin 30 false : FV binary64) = fin r false ∧ 1 < r) ∧
    (∃ r, tanh (fin 1000000 false : FV binary64) = fin r false ∧ 1587 < r) :=
  ⟨⟨4503599627370497/4503599627370496, by decide +kernel, by norm_num⟩,
   ⟨6981027132420847/4398046511104, by decide +kernel, by norm_num⟩⟩

/-! ## C49 -/

/-- the only undefined behaviour of `exp` is the out-of-range conversion -/
theorem exp_error (hf : f.exact = false) {x : FV f} (hx : Valid x) {u : UB} (h : exp x = .error u) : u = .castRange := by
  cases x with
  | nan => rw [C30_special.1] at h; exact absurd h (by simp)
  | inf s => cases s
             · rw [C30_special.2.2.1] at h; exact absurd h (by simp)
             · rw [C30_special.2.1] at h; exact absurd h (by simp)
  | fin q z =>
    rcases lt_or_ge |q| 2 with h2 | h2
    · rcases lt_or_ge |q| (minNormal f) with h3 | h3
      · rw [exp_tiny h3] at h; exact absurd h (by simp)
      · rw [exp_mid h3 h2] at h; exact absurd h (by simp)
    · by_cases hW : -2 ^ 63 ≤ wholeOf q ∧ wholeOf q ≤ 2 ^ 63 - 1
      · obtain ⟨w, hw⟩ := exp_large_ok hf hx h2 hW
        rw [hw] at h; exact absurd h (by simp)
      · rw [exp_large_ub hf hx h2 hW] at h
        injection h with h; exact h.symm

theorem sinh_def (x : FV f) : sinh x = if is_nan x then .ok nan else if limMin > fabs x then .ok (i 0)
    else (exp x).bind fun a => (exp (-x)).bind fun b => .ok ((a - b) / i 2) := rfl

theorem cosh_def (x : FV f) : cosh x = if is_nan x then .ok nan else if limMin > fabs x then .ok (i 1)
    else (exp x).bind fun a => (exp (-x)).bind fun b => .ok ((a + b) / i 2) := rfl

theorem same_half {a b : FV f} (h : a ≃ b) : a / i 2 ≃ b / i 2 := by
  rw [i_two]
  cases a <;> cases b <;> simp [Same] at h
  · rfl
  · subst h; rfl
  · subst h; rw [fin_div (by norm_num), fin_div (by norm_num)]; exact same_mk _ _ _

/-- C49: `sinh` is odd (up to the sign of a zero) and `cosh` is even bit for bit, for every value of the type,
including where they are undefined. -/
theorem C49_symmetry (hf : f.exact = false) (x : FV f) (hx : Valid x) :
    SameRes (sinh (-x)) ((sinh x).map Neg.neg) ∧ cosh (-x) = cosh x := by
  rw [sinh_def, sinh_def, cosh_def, cosh_def, is_nan_neg, fabs_neg, neg_neg']
  have e1 := fun u => exp_error hf hx (u := u)
  have e2 := fun u => exp_error hf hx.neg (u := u)
  constructor
  · split_ifs
    · exact SameRes.of_eq rfl
    · simp [SameRes, Except.map, Same, neg_fin]
    · cases h1 : exp x with
      | error u =>
        cases h2 : exp (-x) with
        | error v => rw [e1 u h1, e2 v h2]; exact SameRes.of_eq rfl
        | ok b => exact SameRes.of_eq rfl
      | ok a =>
        cases h2 : exp (-x) with
        | error v => exact SameRes.of_eq rfl
        | ok b =>
          simp only [Except.bind, SameRes, Except.map]
          rw [← neg_div']
          exact same_half (neg_sub_same a b).symm
  · split_ifs
    · rfl
    · rfl
    · cases h1 : exp x with
      | error u =>
        cases h2 : exp (-x) with
        | error v => rw [e1 u h1, e2 v h2]
        | ok b => rfl
      | ok a =>
        cases h2 : exp (-x) with
        | error v => rfl
        | ok b => simp only [Except.bind]; rw [add_comm' b a]

/-- C49: special values. -/
theorem C49_special :
    sinh (nan : FV f) = .ok nan ∧ cosh (nan : FV f) = .ok nan ∧
    (∀ (q : ℚ) (z : Bool), |q| < minNormal f → sinh (fin q z : FV f) = .ok (fin 0 false) ∧
      cosh (fin q z : FV f) = .ok (fin 1 false)) ∧
    (∀ s : Bool, sinh (inf s : FV f) = .ok (inf s) ∧ cosh (inf s : FV f) = .ok (inf false)) := by
  refine ⟨by rw [sinh_def]; simp, by rw [cosh_def]; simp, fun q z h => ⟨?_, ?_⟩, fun s => ⟨?_, ?_⟩⟩
  · rw [sinh_def, if_neg (by simp), if_pos (limMin_gt_fabs.2 h), i_zero]
  · rw [cosh_def, if_neg (by simp), if_pos (limMin_gt_fabs.2 h), i_one]
  · rw [sinh_def, if_neg (by simp), if_neg (by rw [fabs_inf]; simp [limMin]), neg_inf]
    cases s
    · rw [show (!false) = true from rfl, C30_special.2.1, C30_special.2.2.1, i_two]
      simp only [Except.bind]
      show Except.ok (FV.div (inf false) (fin 2 false)) = _
      norm_num [FV.div, sign]
    · rw [show (!true) = false from rfl, C30_special.2.1, C30_special.2.2.1, i_two]
      simp only [Except.bind]
      show Except.ok (FV.div (inf true) (fin 2 false)) = _
      norm_num [FV.div, sign]
  · rw [cosh_def, if_neg (by simp), if_neg (by rw [fabs_inf]; simp [limMin]), neg_inf]
    cases s
    · rw [show (!false) = true from rfl, C30_special.2.1, C30_special.2.2.1, i_two]
      simp only [Except.bind]
      show Except.ok (FV.div (inf false) (fin 2 false)) = _
      norm_num [FV.div, sign]
    · rw [show (!true) = false from rfl, C30_special.2.1, C30_special.2.2.1, i_two]
      simp only [Except.bind]
      show Except.ok (FV.div (inf false) (fin 2 false)) = _
      norm_num [FV.div, sign]

/-- C49: where `sinh` and `cosh` are undefined (`float` and `double`): exactly for finite `|x| ≥ 2^63`. -/
theorem C49_undefined (hf : f.exact = false) (ht : f.ty ≠ .ldouble) (q : ℚ) (z : Bool)
    (hx : Valid (fin q z : FV f)) :
    (2 ^ 63 ≤ |q| → sinh (fin q z : FV f) = .error .castRange ∧ cosh (fin q z : FV f) = .error .castRange) ∧
    (|q| < 2 ^ 63 → (∃ r, sinh (fin q z : FV f) = .ok r) ∧ (∃ r, cosh (fin q z : FV f) = .ok r)) := by
  have hm := minNormal_lt_one f
  obtain ⟨a1, a2⟩ := C30_undefined hf ht q z hx
  have hxn := hx.neg
  rw [neg_fin] at hxn
  obtain ⟨b1, b2⟩ := C30_undefined hf ht (-q) _ hxn
  rw [← neg_fin] at b1 b2
  constructor
  · intro h
    have hnt : ¬ (limMin : FV f) > fabs (fin q z) := by
      rw [limMin_gt_fabs, not_lt]; linarith [show (1:ℚ) ≤ 2 ^ 63 by norm_num]
    have hnn : ¬ is_nan (fin q z : FV f) = true := by simp
    rw [sinh_def, cosh_def, if_neg hnn, if_neg hnn, if_neg hnt, if_neg hnt]
    by_cases hA : q < -2 ^ 63 ∨ 2 ^ 63 ≤ q
    · rw [a1.2 hA]; exact ⟨rfl, rfl⟩
    · obtain ⟨r, hr⟩ := a2 hA
      have hB : -q < -2 ^ 63 ∨ 2 ^ 63 ≤ -q := by
        push Not at hA
        right
        rcases le_total 0 q with h0 | h0
        · rw [abs_of_nonneg h0] at h; linarith
        · rw [abs_of_nonpos h0] at h; exact h
      rw [hr, b1.2 hB]; exact ⟨rfl, rfl⟩
  · intro h
    obtain ⟨l, r⟩ := abs_lt.1 h
    obtain ⟨r1, h1⟩ := a2 (by push Not; constructor <;> linarith)
    obtain ⟨r2, h2⟩ := b2 (by push Not; constructor <;> linarith)
    rw [sinh_def, cosh_def, h1, h2]
    constructor <;> split_ifs <;> exact ⟨_, rfl⟩

/-- C49 (loss of small results): `sinh(1e-17)` is `0`. -/
theorem C49_cancellation : sinh (d 1e-17 : FV binary64) = .ok (fin 0 false) := by decide +kernel

example : sinh (fin 1 false : FV binary64) = .ok (fin (2646317828889793/2251799813685248) false) ∧
    cosh (fin 1 false : FV binary64) = .ok (fin (434338585747285/281474976710656) false) := by decide +kernel

/-! ## C50 -/

/-- C50: none of the three inverse functions has undefined behaviour. -/
theorem C50_total (hf : f.exact = false) (x : FV f) :
    (∃ r, asinh x = .ok r) ∧ (∃ r, acosh x = .ok r) ∧ (∃ r, atanh x = .ok r) := by
  refine ⟨?_, ?_, ?_⟩
  · unfold asinh asinh_compute
    obtain ⟨⟨s, hs⟩, -⟩ := C25_total hf (x * x + i 1) (valid_add _ _)
    obtain ⟨l, hl⟩ := C35_total hf (x + s) (valid_add _ _)
    rw [hs]; simp only [bind, Except.bind, hl]
    split_ifs <;> exact ⟨_, rfl⟩
  · unfold acosh acosh_compute
    obtain ⟨⟨s, hs⟩, -⟩ := C25_total hf (x * x - i 1) (valid_sub _ _)
    obtain ⟨l, hl⟩ := C35_total hf (x + s) (valid_add _ _)
    rw [hs]; simp only [bind, Except.bind, hl]
    split_ifs <;> exact ⟨_, rfl⟩
  · unfold atanh atanh_check atanh_compute
    obtain ⟨l, hl⟩ := C35_total hf ((i 1 + x) / (i 1 - x)) (valid_div _ _)
    rw [hl]
    split_ifs <;> exact ⟨_, rfl⟩

/-- C50: domains and end points. -/
theorem C50_domain :
    (∀ x : FV f, x = nan ∨ x < fin 1 false → acosh x = .ok nan) ∧
    (∀ z, acosh (fin 1 z : FV f) = .ok (fin 0 false)) ∧
    (∀ x : FV f, x = nan ∨ fabs x > fin 1 false → atanh x = .ok nan) ∧
    (∀ z, atanh (fin 1 z : FV f) = .ok (inf false)) ∧ (∀ z, atanh (fin (-1) z : FV f) = .ok (inf true)) ∧
    asinh (nan : FV f) = .ok nan ∧
    (∀ (q : ℚ) (z : Bool), |q| < minNormal f → asinh (fin q z : FV f) = .ok (fin 0 false) ∧
      atanh (fin q z : FV f) = .ok (fin 0 false)) := by
  have hm := minNormal_pos f
  have hm1 := minNormal_lt_one f
  refine ⟨?_, ?_, ?_, ?_, ?_, by simp [asinh, asinh_compute, limNaN], ?_⟩
  · rintro x (rfl | h)
    · simp [acosh, acosh_compute, limNaN]
    · unfold acosh acosh_compute
      split
      · rfl
      · first | rfl | (rw [if_pos (by rw [i_one]; exact h)]; rfl)
  · intro z
    unfold acosh acosh_compute
    rw [if_neg (by simp), if_neg (by rw [i_one, fin_lt]; exact lt_irrefl _), if_pos, i_zero]
    rw [i_one, fin_sub, sub_self, mk_zero, limMin_gt_fabs, abs_zero]; exact hm
  · rintro x (rfl | h)
    · simp [atanh, atanh_check, limNaN]
    · unfold atanh atanh_check
      split
      · rfl
      · first | rfl | (rw [if_pos (by rw [i_one]; exact h)]; rfl)
  · intro z
    obtain ⟨w, hw⟩ := fabs_fin' (f := f) 1 z
    unfold atanh atanh_check
    rw [if_neg (by simp), hw, i_one, abs_one, if_neg (by rw [fin_lt]; exact lt_irrefl _), if_pos]
    · rw [sgn_fin]
      norm_num
      show FV.mul _ _ = _
      norm_num [FV.mul, limInf, sign]
    · rw [fin_sub, sub_self, mk_zero, gt_iff]; unfold limMin; rw [fin_lt]; exact hm
  · intro z
    obtain ⟨w, hw⟩ := fabs_fin' (f := f) (-1) z
    unfold atanh atanh_check
    rw [if_neg (by simp), hw, i_one, abs_neg, abs_one, if_neg (by rw [fin_lt]; exact lt_irrefl _), if_pos]
    · rw [sgn_fin]
      norm_num
      show FV.mul _ _ = _
      norm_num [FV.mul, limInf, sign]
    · rw [fin_sub, sub_self, mk_zero, gt_iff]; unfold limMin; rw [fin_lt]; exact hm
  · intro q z h
    constructor
    · unfold asinh asinh_compute
      rw [if_neg (by simp), if_pos (limMin_gt_fabs.2 h), i_zero]
    · obtain ⟨w, hw⟩ := fabs_fin' (f := f) q z
      unfold atanh atanh_check
      rw [if_neg (by simp), if_neg (by rw [hw, i_one, fin_lt]; linarith), if_neg, if_pos (limMin_gt_fabs.2 h), i_zero]
      rw [hw, i_one, fin_sub, gt_iff]; unfold limMin
      have h2 : Rep f (1/2) := by
        have := rep_pow2 (f := f) (e := -1) (by have := emin_small f; have := prec_pos f; omega)
        rw [pow2_eq] at this; norm_num at this ⊢; exact this
      have h3 := le_rnd_of_rep (f := f) (q := 1 - |q|) h2 (by linarith)
      have h4 := rnd_le_of_rep (f := f) (q := 1 - |q|) rep_one (by linarith [abs_nonneg q])
      rw [mk_fin (nov_small (by rw [abs_of_nonneg (by linarith)]; linarith [abs_nonneg q])), fin_lt]
      linarith

/-- C50 (failures): `asinh` is not odd — `asinh(-1e10)` is `-inf` and `asinh(-inf)` is NaN — and `asinh`, `acosh`
overflow to `+inf` far inside the range (`1e200`, where the real value is about `461.2`). -/
theorem C50_failures :
    asinh (d (-1e10) : FV binary64) = .ok (inf true) ∧ (∃ r, asinh (d 1e10 : FV binary64) = .ok (fin r false)) ∧
    asinh (inf true : FV binary64) = .ok nan ∧ asinh (inf false : FV binary64) = .ok (inf false) ∧
    asinh (d 1e200 : FV binary64) = .ok (inf false) ∧ acosh (d 1e200 : FV binary64) = .ok (inf false) := by
  refine ⟨by decide +kernel, ⟨6676304440753195/281474976710656, by decide +kernel⟩, by decide +kernel, by decide +kernel, by decide +kernel, by decide +kernel⟩

example : acosh (fin 2 false : FV binary64) = .ok (fin (5931051093853237/4503599627370496) false) ∧
    atanh (d 0.3 : FV binary64) = .ok (fin (2787904748305995/9007199254740992) false) := by decide +kernel

end Gcem.Props
