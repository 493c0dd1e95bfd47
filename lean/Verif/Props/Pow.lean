import Verif.Props.Log
import Verif.Fp.Sum

/-!
# C34, C39, C40: expm1, log1p and pow with a floating exponent — special values and branches
-/

namespace Gcem.Props
open Gcem FV
variable {f : Fmt}

/-! ## C34 -/

theorem expm1_large {x : FV f} (h : fabs x > d 1e-4) : expm1 x = (exp x).bind fun e => .ok (e - i 1) := by
  unfold expm1 expm1_check
  rw [if_neg, if_pos h]
  · rfl
  · rw [is_nan_iff]; rintro rfl; rw [gt_iff, fabs_nan] at h; exact lt_nan h

theorem expm1_small {x : FV f} (hn : x ≠ nan) (h : ¬ fabs x > d 1e-4) : expm1 x = .ok (expm1_compute x) := by
  unfold expm1 expm1_check
  rw [if_neg (by rw [is_nan_iff]; exact hn), if_neg h]

theorem d_1em4 : ∃ w : ℚ, (d 1e-4 : FV f) = fin w false ∧ 1/10001 ≤ w ∧ w ≤ 1/9999 := by
  obtain ⟨r, ⟨w, hw⟩, h1, h2⟩ := is_d_near (f := f) (q := 1e-4) (by norm_num) (by norm_num)
  have h1' : 1/10001 ≤ r := by norm_num at h1 ⊢; linarith
  refine ⟨r, ?_, h1', by norm_num at h2 ⊢; linarith⟩
  have := valid_d (f := f) 1e-4
  rw [hw] at this ⊢
  rw [this.z_false (by linarith)]

/-- C34: special values; signed zeros are preserved. -/
theorem C34_special :
    expm1 (nan : FV f) = .ok nan ∧ expm1 (inf false : FV f) = .ok (inf false) ∧
    expm1 (inf true : FV f) = .ok (fin (-1) false) ∧
    ∀ z : Bool, expm1 (fin 0 z : FV f) = .ok (fin 0 z) := by
  obtain ⟨w, hw, h1, h2⟩ := d_1em4 (f := f)
  have hi : ∀ s, fabs (inf s : FV f) > d 1e-4 := by intro s; rw [gt_iff, hw, fabs_inf]; simp
  refine ⟨by simp [expm1, expm1_check, limNaN], ?_, ?_, ?_⟩
  · rw [expm1_large (hi _), C30_special.2.2.1, i_one]; rfl
  · rw [expm1_large (hi _), C30_special.2.1, i_one]
    show Except.ok _ = _
    rw [fin_sub, show (0:ℚ) - 1 = -1 by norm_num, mk_of_rep]
    · simp
    · exact rep_one.neg
    · exact nov' (q := -1) (by norm_num)
  · intro z
    have h6 : (i 6 : FV f) = fin 6 false := by simpa using i_small (f := f) (n := 6) (by decide)
    have h24 : (i 24 : FV f) = fin 24 false := by simpa using i_small (f := f) (n := 24) (by decide)
    have h120 : (i 120 : FV f) = fin 120 false := by simpa using i_small (f := f) (n := 120) (by decide)
    rw [expm1_small (by simp)]
    · unfold expm1_compute
      rw [h6, h24, h120]
      cases z <;>
      simp [fin_mul, fin_div, fin_add, sign]
    · rw [fabs_fin_zero, hw, gt_iff, fin_lt]; linarith

/-- C34: above `1e-4` (as a value of the type) it is `exp(x) - 1`, and it is undefined exactly where `exp` is. -/
theorem C34_branches (x : FV f) : (fabs x > d 1e-4 → expm1 x = (exp x).bind fun e => .ok (e - fin 1 false)) ∧
    (∀ u, expm1 x = .error u ↔ exp x = .error u) := by
  refine ⟨fun h => by rw [expm1_large h, i_one], fun u => ?_⟩
  by_cases h : fabs x > d 1e-4
  · rw [expm1_large h]
    cases h2 : exp x <;> simp [Except.bind]
  · cases x with
    | nan => rw [C34_special.1, C30_special.1]
    | inf s =>
      exfalso; apply h
      obtain ⟨w, hw, -⟩ := d_1em4 (f := f)
      rw [gt_iff, hw, fabs_inf]; simp
    | fin q z =>
      rw [expm1_small (by simp) h]
      obtain ⟨w, hw, h1, h2⟩ := d_1em4 (f := f)
      obtain ⟨z', hz⟩ := fabs_fin' (f := f) q z
      rw [gt_iff, hw, hz, fin_lt] at h
      rcases lt_or_ge |q| (minNormal f) with h3 | h3
      · rw [exp_tiny h3]; simp
      · rw [exp_mid h3 (by linarith)]; simp

example : expm1 (fin 1 false : FV binary64) = .ok (fin (3869226701182825 / 2251799813685248) false) := by
  decide +kernel

/-! ## C39 -/

theorem log1p_large {x : FV f} (h : fabs x > d 1e-4) : log1p x = log (i 1 + x) := by
  unfold log1p log1p_check
  rw [if_neg, if_pos h]
  rw [is_nan_iff]; rintro rfl; rw [gt_iff, fabs_nan] at h; exact lt_nan h

theorem log1p_small {x : FV f} (hn : x ≠ nan) (h : ¬ fabs x > d 1e-4) : log1p x = .ok (log1p_compute x) := by
  unfold log1p log1p_check
  rw [if_neg (by rw [is_nan_iff]; exact hn), if_neg h]

/-- a sum of two values that is not zero does not round to zero -/
theorem one_add_neg {q : ℚ} {z : Bool} (hx : Valid (fin q z : FV f)) (h : q < -1) :
    (fin 1 false : FV f) + fin q z < fin 0 false := by
  rw [fin_add]
  exact mk_lt_zero (rnd_add_neg rep_one hx.rep (by linarith))

/-- C39: special values.  Signed zeros are preserved; below `-1` the result is NaN, at `-1` it is `-inf`. -/
theorem C39_special :
    log1p (nan : FV f) = .ok nan ∧ log1p (inf false : FV f) = .ok (inf false) ∧
    log1p (inf true : FV f) = .ok nan ∧ log1p (fin (-1) false : FV f) = .ok (inf true) ∧
    (∀ (q : ℚ) (z : Bool), Valid (fin q z : FV f) → q < -1 → log1p (fin q z : FV f) = .ok nan) ∧
    (∀ z : Bool, log1p (fin 0 z : FV f) = .ok (fin 0 z)) := by
  obtain ⟨w, hw, h1, h2⟩ := d_1em4 (f := f)
  have hi : ∀ s, fabs (inf s : FV f) > d 1e-4 := by intro s; rw [gt_iff, hw, fabs_inf]; simp
  have hb : ∀ (q : ℚ) (z : Bool), 1 ≤ |q| → fabs (fin q z : FV f) > d 1e-4 := by
    intro q z h
    obtain ⟨z', hz⟩ := fabs_fin' (f := f) q z
    rw [gt_iff, hw, hz, fin_lt]; linarith
  refine ⟨by simp [log1p, log1p_check, limNaN], ?_, ?_, ?_, ?_, ?_⟩
  · rw [log1p_large (hi _), i_one]; exact log_posinf
  · rw [log1p_large (hi _), i_one]; exact log_neg (by simp [show (fin 1 false : FV f) + inf true = inf true from rfl])
  · rw [log1p_large (hb _ _ (by norm_num)), i_one, fin_add, show (1:ℚ) + -1 = 0 by norm_num, mk_zero]
    exact log_tiny le_rfl (minNormal_pos f)
  · intro q z hx h
    rw [log1p_large (hb _ _ (by rw [abs_of_neg (by linarith)]; linarith)), i_one]
    exact log_neg (by rw [i_zero]; exact one_add_neg hx h)
  · intro z
    have h3 : (i 3 : FV f) = fin 3 false := by simpa using i_small (f := f) (n := 3) (by decide)
    have h4 : (i 4 : FV f) = fin 4 false := by simpa using i_small (f := f) (n := 4) (by decide)
    have h5 : (i 5 : FV f) = fin 5 false := by simpa using i_small (f := f) (n := 5) (by decide)
    rw [log1p_small (by simp)]
    · unfold log1p_compute
      rw [h3, h4, h5]
      cases z <;>
      simp [fin_mul, fin_div, fin_add, neg_fin, sign]
    · rw [fabs_fin_zero, hw, gt_iff, fin_lt]; linarith

/-- C39: above `1e-4` it is `log(1+x)` with the rounded sum; it never has undefined behaviour. -/
theorem C39_branches (x : FV f) : (fabs x > d 1e-4 → log1p x = log (fin 1 false + x)) ∧
    (f.exact = false → ∃ r, log1p x = .ok r) := by
  refine ⟨fun h => by rw [log1p_large h, i_one], fun hf => ?_⟩
  by_cases h : fabs x > d 1e-4
  · rw [log1p_large h]; exact C35_total hf _ (valid_add _ _)
  · unfold log1p log1p_check
    split
    · exact ⟨_, rfl⟩
    · exact ⟨_, rfl⟩

/-! ## C40 -/

theorem pow_nonneg_base {x : FV f} (h : ¬ x < i 0) (y : FV f) : pow x y = (log x).bind fun l => exp (y * l) := by
  unfold pow pow_check
  rw [if_neg h]; rfl

/-- C40: domain.  A negative base gives NaN whatever the exponent, also when the exponent is a whole
number; NaN operands give NaN. -/
theorem C40_domain (x y : FV f) :
    (x < fin 0 false → pow x y = .ok nan) ∧ pow (nan : FV f) y = .ok nan ∧
    (f.exact = false → Valid x → pow x nan = .ok nan) := by
  refine ⟨fun h => ?_, ?_, fun hf hx => ?_⟩
  · unfold pow pow_check; rw [if_pos (by rw [i_zero]; exact h)]; rfl
  · rw [pow_nonneg_base (by simp), C35_special.1]
    show exp (y * nan) = _
    rw [mul_nan]; exact C30_special.1
  · by_cases h : x < i 0
    · unfold pow pow_check; rw [if_pos h]; rfl
    · obtain ⟨r, hr⟩ := C35_total hf x hx
      rw [pow_nonneg_base h, hr]
      show exp (nan * r) = _
      rw [nan_mul]; exact C30_special.1

/-- C40: a zero (or positive subnormal) base. -/
theorem C40_zero_base (q : ℚ) (z : Bool) (h0 : 0 ≤ q) (h : q < minNormal f) (y : FV f) :
    (y > fin 0 false → pow (fin q z) y = .ok (fin 0 false)) ∧
    (y < fin 0 false → pow (fin q z) y = .ok (inf false)) ∧
    (∀ w, y = fin 0 w → pow (fin q z) y = .ok nan) := by
  have e : pow (fin q z) y = exp (y * inf true) := by
    rw [pow_nonneg_base (by rw [i_zero, fin_lt]; linarith), log_tiny h0 h]; rfl
  rw [e]
  refine ⟨fun hy => ?_, fun hy => ?_, fun w hy => ?_⟩
  · have : y * inf true = inf true := by
      cases y with
      | nan => exact absurd hy (by simp)
      | inf s => cases s
                 · rfl
                 · exact absurd hy (by simp)
      | fin a w =>
        rw [gt_iff, fin_lt] at hy
        show FV.mul _ _ = _
        simp [FV.mul, hy.ne', hy.not_gt, sign]
    rw [this]; exact C30_special.2.1
  · have : y * inf true = inf false := by
      cases y with
      | nan => exact absurd hy (by simp)
      | inf s => cases s
                 · exact absurd hy (by simp)
                 · rfl
      | fin a w =>
        rw [fin_lt] at hy
        show FV.mul _ _ = _
        simp [FV.mul, hy.ne, hy, sign]
    rw [this]; exact C30_special.2.2.1
  · subst hy
    have : (fin 0 w : FV f) * inf true = nan := by
      show FV.mul _ _ = _
      simp [FV.mul]
    rw [this]; exact C30_special.1

/-- C40: base `1`: `1` for every finite exponent, NaN for infinite ones. -/
theorem C40_one_base (z w : Bool) (q : ℚ) :
    pow (fin 1 z : FV f) (fin q w) = .ok (fin 1 false) ∧ pow (fin 1 z : FV f) (inf w) = .ok nan := by
  have hb : ¬ (fin 1 z : FV f) < i 0 := by rw [i_zero, fin_lt]; norm_num
  rw [pow_nonneg_base hb, pow_nonneg_base hb, log_one]
  constructor
  · show exp _ = _
    rw [fin_mul, mul_zero, mk_zero]
    exact exp_tiny (by rw [abs_zero]; exact minNormal_pos f)
  · show exp _ = _
    have : (inf w : FV f) * fin 0 false = nan := by show FV.mul _ _ = _; simp [FV.mul]
    rw [this]; exact C30_special.1

/-- C40: base `+inf`. -/
theorem C40_inf_base (y : FV f) :
    (y > fin 0 false → pow (inf false) y = .ok (inf false)) ∧
    (y < fin 0 false → pow (inf false) y = .ok (fin 0 false)) ∧
    (∀ w, y = fin 0 w → pow (inf false) y = .ok nan) := by
  have e : pow (inf false) y = exp (y * inf false) := by
    rw [pow_nonneg_base (by simp), log_posinf]; rfl
  rw [e]
  refine ⟨fun hy => ?_, fun hy => ?_, fun w hy => ?_⟩
  · have : y * inf false = inf false := by
      cases y with
      | nan => exact absurd hy (by simp)
      | inf s => cases s
                 · rfl
                 · exact absurd hy (by simp)
      | fin a w =>
        rw [gt_iff, fin_lt] at hy
        show FV.mul _ _ = _
        simp [FV.mul, hy.ne', hy.not_gt, sign]
    rw [this]; exact C30_special.2.2.1
  · have : y * inf false = inf true := by
      cases y with
      | nan => exact absurd hy (by simp)
      | inf s => cases s
                 · exact absurd hy (by simp)
                 · rfl
      | fin a w =>
        rw [fin_lt] at hy
        show FV.mul _ _ = _
        simp [FV.mul, hy.ne, hy, sign]
    rw [this]; exact C30_special.2.1
  · subst hy
    have : (fin 0 w : FV f) * inf false = nan := by
      show FV.mul _ _ = _
      simp [FV.mul]
    rw [this]; exact C30_special.1

/-- C40: `pow(2.0, 1e300)` is undefined (not `+inf`) and `pow(2.0, 2.0)` is not exactly `4`. -/
theorem C40_witnesses :
    pow (fin 2 false : FV binary64) (fin (10 ^ 300) false) = .error .castRange ∧
    pow (fin 2 false : FV binary64) (fin 2 false) = .ok (fin (2251799813685247 / 562949953421312) false) ∧
    (2251799813685247 / 562949953421312 : ℚ) < 4 ∧
    pow (fin (-2) false : FV binary64) (fin 2 false) = .ok nan := by
  refine ⟨by decide +kernel, by decide +kernel, by norm_num, by decide +kernel⟩

end Gcem.Props
