import Verif.Props.Gamma

/-!
# C56–C58: incomplete beta and gamma functions and their inverses

Every call returns a value of the format or runs into one particular undefined operation (conversion of an
out-of-range value to `long long int` inside `exp`); boundary values; reflection.
-/

namespace Gcem.Props
open Gcem FV
variable {f : Fmt}

/-- the call returns a value of the format, or its only undefined operation is an out-of-range conversion -/
def OkV (r : Res (FV f)) : Prop := match r with | .ok v => Valid v | .error u => u = .castRange

theorem OkV.ok {v : FV f} (h : Valid v) : OkV (.ok v : Res (FV f)) := h
theorem OkV.bind {r : Res (FV f)} {k : FV f → Res (FV f)} (h : OkV r) (hk : ∀ v, Valid v → OkV (k v)) :
    OkV (r.bind k) := by
  cases r with
  | ok v => exact hk v h
  | error u => exact h

theorem valid_nan : Valid (nan : FV f) := trivial
theorem valid_inf (s : Bool) : Valid (inf s : FV f) := trivial

theorem okv_exp (hf : f.exact = false) {x : FV f} (hx : Valid x) : OkV (exp x) := by
  cases h : exp x with
  | error u => exact exp_error hf hx h
  | ok v =>
    show Valid v
    unfold exp exp_check exp_split at h
    split at h
    · injection h with h; rw [← h]; trivial
    split at h
    · injection h with h; rw [← h]; exact valid_i _
    split at h
    · injection h with h; rw [← h]; exact valid_i _
    split at h
    · injection h with h; rw [← h]; trivial
    split at h
    · injection h with h; rw [← h]; exact valid_div _ _
    simp only [Bind.bind, Except.bind] at h
    split at h
    · cases h
    split at h
    · cases h
    injection h with h; rw [← h]; exact valid_mul _ _

theorem okv_log (hf : f.exact = false) {x : FV f} (hx : Valid x) : OkV (log x) := by
  obtain ⟨r, hr⟩ := C35_total hf x hx
  rw [hr]
  show Valid r
  unfold log log_check log_breakup at hr
  split at hr
  · injection hr with h; rw [← h]; trivial
  split at hr
  · injection hr with h; rw [← h]; trivial
  split at hr
  · injection hr with h; rw [← h]; trivial
  split at hr
  · injection hr with h; rw [← h]; exact valid_i _
  split at hr
  · injection hr with h; rw [← h]; trivial
  split at hr
  · simp only [Bind.bind, Except.bind] at hr
    repeat (split at hr; · cases hr)
    injection hr with h; rw [← h]; exact valid_add _ _
  · injection hr with h; rw [← h]; exact valid_div _ _

theorem okv_sqrt (hf : f.exact = false) {x : FV f} (hx : Valid x) : OkV (sqrt x) := by
  obtain ⟨⟨r, hr⟩, -⟩ := C25_total hf x hx
  rw [hr]
  show Valid r
  have hsimp : ∀ (n : ℕ) (y m v : FV f), sqrt_simplify n y m = .ok v → Valid v := by
    intro n
    induction n with
    | zero => intro y m v h; cases h
    | succ n ih =>
      intro y m v h
      unfold sqrt_simplify at h
      repeat (split at h; · exact ih _ _ _ h)
      injection h with h; rw [← h]; exact valid_mul _ _
  unfold sqrt sqrt_check at hr
  split at hr
  · injection hr with h; rw [← h]; trivial
  split at hr
  · injection hr with h; rw [← h]; trivial
  split at hr
  · injection hr with h; rw [← h]; exact hx
  split at hr
  · injection hr with h; rw [← h]; exact valid_i _
  split at hr
  · injection hr with h; rw [← h]; exact hx
  exact hsimp _ _ _ _ hr

theorem okv_lgamma (hf : f.exact = false) (x : FV f) : OkV (lgamma x) := by
  obtain ⟨r, hr⟩ := C53_lgamma_total hf x
  rw [hr]; exact valid_lgamma hr

theorem okv_lbeta (hf : f.exact = false) (a b : FV f) : OkV (lbeta a b) := by
  obtain ⟨⟨r, hr⟩, -⟩ := C54_lbeta_symm hf a b
  rw [hr]; exact valid_lbeta hr

theorem okv_pow (hf : f.exact = false) {x : FV f} (hx : Valid x) (y : FV f) : OkV (pow x y) := by
  unfold pow pow_check pow_dbl
  split
  · trivial
  · exact (okv_log hf hx).bind fun l _ => okv_exp hf (valid_mul _ _)

theorem okv_ibeta_begin (hf : f.exact = false) (a b : FV f) {z : FV f} (hz : Valid z) :
    OkV (incomplete_beta_begin a b z) := by
  unfold incomplete_beta_begin
  exact (okv_log hf hz).bind fun _ _ => (okv_log hf (valid_sub _ _)).bind fun _ _ => (okv_lbeta hf _ _).bind fun _ _ =>
    (okv_exp hf (valid_sub _ _)).bind fun _ _ => OkV.ok (valid_mul _ _)

/-- C56: for every triple `incomplete_beta` returns a value of the format, or has undefined behaviour through
the out-of-range conversion in `exp`; in particular it always terminates. -/
theorem C56_outcome (hf : f.exact = false) (a b : FV f) {z : FV f} (hz : Valid z) : OkV (incomplete_beta a b z) := by
  unfold incomplete_beta incomplete_beta_check
  split
  · trivial
  split
  · exact valid_i _
  split
  · exact okv_ibeta_begin hf a b hz
  · exact (okv_ibeta_begin hf b a (valid_sub _ _)).bind fun _ _ => OkV.ok (valid_sub _ _)

theorem any_nan3_iff {x y z : FV f} : any_nan3 x y z = true ↔ (x = nan ∨ y = nan ∨ z = nan) := by
  unfold any_nan3
  rw [Bool.or_eq_true, Bool.or_eq_true, is_nan_iff, is_nan_iff, is_nan_iff, or_assoc]

/-- C56: NaN arguments, and `z` below the least positive normal value.  There is no check for negative `a`, `b`
or `z`: a negative `z` gives `0`. -/
theorem C56_boundary (a b z : FV f) :
    (a = nan ∨ b = nan ∨ z = nan → incomplete_beta a b z = .ok nan) ∧
    (a ≠ nan → b ≠ nan → z < limMin → incomplete_beta a b z = .ok (fin 0 false)) := by
  constructor
  · intro h
    unfold incomplete_beta incomplete_beta_check
    rw [if_pos (any_nan3_iff.2 h)]; rfl
  · intro ha hb hz
    have hn : z ≠ nan := by rintro rfl; exact nan_lt hz
    unfold incomplete_beta incomplete_beta_check
    rw [if_neg (by rw [any_nan3_iff]; simp [ha, hb, hn]), if_pos hz, i_zero]

/-- C56: reflection.  When `z` is not below the switch point `(a+1)/(a+b+2)` while `1-z` is below the mirrored
switch point, `I_z(a,b)` is computed as `1 - I_{1-z}(b,a)`. -/
theorem C56_reflection (a b z : FV f) (ha : a ≠ nan) (hb : b ≠ nan) (hz : z ≠ nan) (hz1 : ¬ z < limMin)
    (h1 : ¬ z < (a + fin 1 false) / (a + b + fin 2 false))
    (hz2 : ¬ (fin 1 false - z) < limMin)
    (h2 : (fin 1 false - z) < (b + fin 1 false) / (b + a + fin 2 false)) :
    incomplete_beta a b z = (incomplete_beta b a (fin 1 false - z)).bind fun r => .ok (fin 1 false - r) := by
  have hn : (fin 1 false : FV f) - z ≠ nan := by intro h; rw [h] at h2; exact nan_lt h2
  have e : incomplete_beta b a (fin 1 false - z) = incomplete_beta_begin b a (fin 1 false - z) := by
    unfold incomplete_beta incomplete_beta_check
    rw [if_neg (by rw [any_nan3_iff]; simp [ha, hb, hn]), if_neg (by simpa using hz2), i_one, i_two, if_pos (by simpa using h2)]
  rw [e]
  unfold incomplete_beta incomplete_beta_check
  rw [if_neg (by rw [any_nan3_iff]; simp [ha, hb, hz]), if_neg (by simpa using hz1), i_one, i_two, if_neg (by simpa using h1)]
  rfl

/-- C56: finite, moderate-looking arguments with undefined behaviour: the mathematical value is `0`. -/
theorem C56_undefined : incomplete_beta (fin (10 ^ 20) false : FV binary64) (fin 1 false) (fin (1/2) false)
    = .error .castRange := by decide +kernel

example : incomplete_beta (fin (5/2) false : FV binary64) (fin (3/2) false) (fin (3/4) false)
    = (incomplete_beta (fin (3/2) false) (fin (5/2) false) (fin 1 false - fin (3/4) false)).bind
        fun r => .ok (fin 1 false - r) :=
  C56_reflection _ _ _ (by simp) (by simp) (by simp) (by decide +kernel) (by decide +kernel) (by decide +kernel)
    (by decide +kernel)

/-! ## incomplete_gamma -/

theorem okv_igamma_quad_fn (hf : f.exact = false) {x : FV f} (hx : Valid x) (a lg : FV f) :
    OkV (incomplete_gamma_quad_fn x a lg) := by
  unfold incomplete_gamma_quad_fn
  exact (okv_log hf hx).bind fun _ _ => okv_exp hf (valid_sub _ _)

theorem okv_igamma_quad_recur (hf : f.exact = false) (lb ub a lg : FV f) : ∀ (n k : ℕ), 49 - k = n →
    OkV (incomplete_gamma_quad_recur lb ub a lg k) := by
  intro n
  induction n with
  | zero =>
    intro k h
    rw [incomplete_gamma_quad_recur, if_neg (by omega)]
    exact (okv_igamma_quad_fn hf (valid_cast _) _ _).bind fun _ _ => OkV.ok (valid_mul _ _)
  | succ n ih =>
    intro k h
    rw [incomplete_gamma_quad_recur, if_pos (by omega)]
    exact (okv_igamma_quad_fn hf (valid_cast _) _ _).bind fun _ _ => (ih (k + 1) (by omega)).bind fun _ _ =>
      OkV.ok (valid_add _ _)

/-- C57: for every pair `incomplete_gamma` returns a value of the format, or has undefined behaviour through
the out-of-range conversion in `exp`. -/
theorem C57_outcome (hf : f.exact = false) {a z : FV f} (ha : Valid a) (hz : Valid z) : OkV (incomplete_gamma a z) := by
  unfold incomplete_gamma incomplete_gamma_check
  split
  · trivial
  split
  · trivial
  split
  · exact valid_i _
  split
  · exact valid_i _
  split
  · unfold incomplete_gamma_cf_1
    exact (okv_log hf hz).bind fun _ _ => (okv_lgamma hf _).bind fun _ _ => (okv_exp hf (valid_sub _ _)).bind fun _ _ =>
      OkV.ok (valid_div _ _)
  split
  · unfold incomplete_gamma_cf_2
    exact (okv_log hf hz).bind fun _ _ => (okv_lgamma hf _).bind fun _ _ => (okv_exp hf (valid_sub _ _)).bind fun _ _ =>
      OkV.ok (valid_sub _ _)
  · unfold incomplete_gamma_quad incomplete_gamma_quad_lb incomplete_gamma_quad_ub
    refine OkV.bind ?_ fun _ _ => OkV.bind ?_ fun _ _ => (okv_lgamma hf _).bind fun _ _ =>
      okv_igamma_quad_recur hf _ _ _ _ 49 0 rfl
    · exact (okv_sqrt hf ha).bind fun _ _ => OkV.ok (valid_fmax (valid_i _) (valid_sub _ _))
    · exact (okv_sqrt hf ha).bind fun _ _ => OkV.ok (valid_fmin hz (valid_add _ _))

/-- C57: NaN arguments and negative `a` give NaN, then `z` below the least positive normal value (also any
negative `z`) gives `0`, then `a` below it gives `1`. -/
theorem C57_boundary (a z : FV f) :
    (a = nan ∨ z = nan → incomplete_gamma a z = .ok nan) ∧
    (a < fin 0 false → incomplete_gamma a z = .ok nan) ∧
    (¬ a < fin 0 false → a ≠ nan → z < limMin → incomplete_gamma a z = .ok (fin 0 false)) ∧
    (¬ a < fin 0 false → a < limMin → z ≠ nan → ¬ z < limMin → incomplete_gamma a z = .ok (fin 1 false)) := by
  unfold incomplete_gamma incomplete_gamma_check
  rw [i_zero, i_one]
  refine ⟨?_, ?_, ?_, ?_⟩
  · intro h
    rw [if_pos (any_nan_iff.2 h)]; rfl
  · intro h
    rw [if_pos h]
    split <;> rfl
  · intro h ha hz
    have hn : z ≠ nan := by rintro rfl; exact nan_lt hz
    rw [if_neg (by rw [any_nan_iff]; simp [ha, hn]), if_neg h, if_pos hz]
  · intro h ha hz hz2
    have hn : a ≠ nan := by rintro rfl; exact nan_lt ha
    rw [if_neg (by rw [any_nan_iff]; simp [hz, hn]), if_neg h, if_neg hz2, if_pos ha]

/-- C57: a finite pair with undefined behaviour, although the mathematical value is `1` to every digit and the
function does return `1` for a hundredth of the argument. -/
theorem C57_undefined : incomplete_gamma (fin 1 false : FV binary64) (fin (10 ^ 20) false) = .error .castRange ∧
    incomplete_gamma (fin 1 false : FV binary64) (fin (10 ^ 18) false) = .ok (fin 1 false) := by decide +kernel

example : incomplete_gamma (fin 3 false : FV binary64) (fin (-2) false) = .ok (fin 0 false) :=
  (C57_boundary _ _).2.2.1 (by decide +kernel) (by simp) (by decide +kernel)
/-! ## the inverses -/

theorem okv_halley {a b : FV f} : Valid (halley a b) := valid_div _ _

theorem okv_ibeta_inv_initial (hf : f.exact = false) (a b : FV f) {p : FV f} (hp : Valid p) :
    OkV (incomplete_beta_inv_initial_val a b p) := by
  have h2 : ∀ (a b : FV f), OkV (incomplete_beta_inv_initial_val_2_s1 a b) ∧ OkV (incomplete_beta_inv_initial_val_2_s2 a b) ∧
      ∀ p s t : FV f, OkV (incomplete_beta_inv_initial_val_2 a b p s t) := by
    intro a b
    refine ⟨?_, ?_, ?_⟩
    · exact (okv_pow hf (valid_div _ _) _).bind fun _ _ => OkV.ok (valid_div _ _)
    · exact (okv_pow hf (valid_div _ _) _).bind fun _ _ => OkV.ok (valid_div _ _)
    · intro p s t
      unfold incomplete_beta_inv_initial_val_2
      split
      · exact okv_pow hf (valid_mul _ _) _
      · exact (okv_pow hf (valid_mul _ _) _).bind fun _ _ => OkV.ok (valid_sub _ _)
  unfold incomplete_beta_inv_initial_val
  split
  · refine OkV.bind ?_ fun t ht => ?_
    · unfold incomplete_beta_inv_initial_val_1_tval
      split
      · exact (okv_log hf (valid_sub _ _)).bind fun _ _ => okv_sqrt hf (valid_mul _ _)
      · exact (okv_log hf hp).bind fun _ _ => okv_sqrt hf (valid_mul _ _)
    · unfold incomplete_beta_inv_initial_val_1 incomplete_beta_inv_initial_val_1_int_w
        incomplete_beta_inv_initial_val_1_int_end
      refine OkV.bind ?_ fun w _ => ?_
      · exact (okv_sqrt hf (valid_add _ _)).bind fun _ _ => OkV.ok (valid_sub _ _)
      · exact (okv_exp hf (valid_mul _ _)).bind fun _ _ => OkV.ok (valid_div _ _)
  split
  · exact (h2 b a).1.bind fun _ _ => (h2 b a).2.1.bind fun _ _ => ((h2 b a).2.2 _ _ _).bind fun _ _ =>
      OkV.ok (valid_sub _ _)
  · exact (h2 a b).1.bind fun _ _ => (h2 a b).2.1.bind fun _ _ => (h2 a b).2.2 _ _ _

theorem okv_ibeta_inv_deriv (hf : f.exact = false) {v : FV f} (hv : Valid v) (a b lb : FV f) :
    OkV (incomplete_beta_inv_deriv_1 v a b lb) := by
  unfold incomplete_beta_inv_deriv_1
  split
  · exact valid_i _
  split
  · exact valid_i _
  · exact (okv_log hf hv).bind fun _ _ => (okv_log hf (valid_sub _ _)).bind fun _ _ => okv_exp hf (valid_sub _ _)

theorem okv_ibeta_inv_recur (hf : f.exact = false) (a b p lb : FV f) : ∀ (n : ℕ) (v d1 : FV f), Valid v →
    OkV (incomplete_beta_inv_recur a b p lb n v d1) := by
  intro n
  induction n with
  | zero =>
    intro v d1 hv
    unfold incomplete_beta_inv_recur
    split
    · exact valid_sub _ _
    · refine OkV.bind ?_ fun _ _ => OkV.ok (valid_sub _ _)
      exact (C56_outcome hf a b hv).bind fun _ _ => OkV.ok (valid_div _ _)
  | succ n ih =>
    intro v d1 hv
    unfold incomplete_beta_inv_recur
    split
    · exact valid_sub _ _
    · refine OkV.bind ?_ fun _ _ => ?_
      · exact (C56_outcome hf a b hv).bind fun _ _ => OkV.ok (valid_div _ _)
      · exact (okv_ibeta_inv_deriv hf hv _ _ _).bind fun _ _ => ih _ _ (valid_sub _ _)

/-- C58: for every triple `incomplete_beta_inv` returns a value of the format, or has undefined behaviour
through the out-of-range conversion in `exp`. -/
theorem C58_beta_outcome (hf : f.exact = false) (a b : FV f) {p : FV f} (hp : Valid p) :
    OkV (incomplete_beta_inv a b p) := by
  unfold incomplete_beta_inv incomplete_beta_inv_check
  split
  · trivial
  split
  · exact valid_i _
  split
  · exact valid_i _
  · refine (okv_ibeta_inv_initial hf a b hp).bind fun _ hv => (okv_lbeta hf a b).bind fun _ _ => ?_
    exact (okv_ibeta_inv_deriv hf hv _ _ _).bind fun _ _ => okv_ibeta_inv_recur hf _ _ _ _ _ _ _ hv

theorem okv_igamma_inv_recur (hf : f.exact = false) {a : FV f} (ha : Valid a) (p lg : FV f) : ∀ (n : ℕ) (v d1 : FV f), Valid v →
    OkV (incomplete_gamma_inv_recur a p lg n v d1) := by
  intro n
  induction n with
  | zero =>
    intro v d1 hv
    unfold incomplete_gamma_inv_recur
    refine OkV.bind ?_ fun _ _ => OkV.ok (by first | exact valid_sub _ _ | exact valid_add _ _)
    exact (C57_outcome hf ha hv).bind fun _ _ => OkV.ok (valid_div _ _)
  | succ n ih =>
    intro v d1 hv
    unfold incomplete_gamma_inv_recur
    refine OkV.bind ?_ fun _ _ => ?_
    · exact (C57_outcome hf ha hv).bind fun _ _ => OkV.ok (valid_div _ _)
    · unfold incomplete_gamma_inv_deriv_1
      exact ((okv_log hf hv).bind fun _ _ => okv_exp hf (valid_sub _ _)).bind fun _ _ => ih _ _ (valid_sub _ _)

theorem okv_igamma_inv_initial (hf : f.exact = false) {a p : FV f} (ha : Valid a) (hp : Valid p) :
    OkV (incomplete_gamma_inv_initial_val a p) := by
  unfold incomplete_gamma_inv_initial_val
  split
  · refine OkV.bind ?_ fun t ht => ?_
    · unfold incomplete_gamma_inv_t_val_1
      split
      · exact (okv_log hf (valid_sub _ _)).bind fun _ _ => okv_sqrt hf (valid_mul _ _)
      · exact (okv_log hf hp).bind fun _ _ => okv_sqrt hf (valid_mul _ _)
    · exact (okv_sqrt hf ha).bind fun _ _ => OkV.ok (valid_fmax (valid_d _) (valid_mul _ _))
  · unfold incomplete_gamma_inv_initial_val_2
    split
    · exact okv_pow hf (valid_div _ _) _
    · exact (okv_log hf (valid_sub _ _)).bind fun _ _ => OkV.ok (by first | exact valid_sub _ _ | exact valid_add _ _)

/-- C58: for every pair `incomplete_gamma_inv` returns a value of the format, or has undefined behaviour
through the out-of-range conversion in `exp`. -/
theorem C58_gamma_outcome (hf : f.exact = false) {a p : FV f} (ha : Valid a) (hp : Valid p) :
    OkV (incomplete_gamma_inv a p) := by
  unfold incomplete_gamma_inv incomplete_gamma_inv_check
  split
  · trivial
  split
  · exact valid_i _
  split
  · trivial
  split
  · trivial
  split
  · exact valid_i _
  · refine (okv_igamma_inv_initial hf ha hp).bind fun _ hv => (okv_lgamma hf _).bind fun _ _ => ?_
    exact ((okv_log hf hv).bind fun _ _ => okv_exp hf (valid_sub _ _)).bind fun _ _ =>
      okv_igamma_inv_recur hf ha _ _ _ _ _ hv

/-- C58: boundary values of `incomplete_beta_inv`; there is no check for `p > 1` nor for the signs of `a`, `b`. -/
theorem C58_beta_boundary (a b p : FV f) :
    (a = nan ∨ b = nan ∨ p = nan → incomplete_beta_inv a b p = .ok nan) ∧
    (a ≠ nan → b ≠ nan → p < limMin → incomplete_beta_inv a b p = .ok (fin 0 false)) ∧
    (a ≠ nan → b ≠ nan → ∀ z, incomplete_beta_inv a b (fin 1 z) = .ok (fin 1 false)) := by
  unfold incomplete_beta_inv incomplete_beta_inv_check
  rw [i_zero, i_one]
  have hm := minNormal_lt_one f
  refine ⟨?_, ?_, ?_⟩
  · intro h
    rw [if_pos (any_nan3_iff.2 h)]; rfl
  · intro ha hb hz
    have hn : p ≠ nan := by rintro rfl; exact nan_lt hz
    rw [if_neg (by rw [any_nan3_iff]; simp [ha, hb, hn]), if_pos hz]
  · intro ha hb z
    rw [if_neg (by rw [any_nan3_iff]; simp [ha, hb]), if_neg, if_pos]
    · rw [fin_sub, sub_self, mk_zero, limMin_gt_fabs, abs_zero]; exact minNormal_pos f
    · rw [limMin, gt_iff, fin_lt]; linarith

/-- C58: boundary values of `incomplete_gamma_inv`, in the order in which they are tested. -/
theorem C58_gamma_boundary (a p : FV f) :
    (a = nan ∨ p = nan → incomplete_gamma_inv a p = .ok nan) ∧
    (a ≠ nan → p < limMin → incomplete_gamma_inv a p = .ok (fin 0 false)) ∧
    (fin 1 false < p → incomplete_gamma_inv a p = .ok nan) ∧
    (a ≠ nan → ∀ z, incomplete_gamma_inv a (fin 1 z) = .ok (inf false)) ∧
    (a < limMin → ∀ q z, minNormal f ≤ q → q ≤ 1/2 → incomplete_gamma_inv a (fin q z) = .ok (fin 0 false)) := by
  unfold incomplete_gamma_inv incomplete_gamma_inv_check
  rw [i_zero, i_one]
  have hm := minNormal_lt_one f
  refine ⟨?_, ?_, ?_, ?_, ?_⟩
  · intro h
    rw [if_pos (any_nan_iff.2 h)]; rfl
  · intro ha hz
    have hn : p ≠ nan := by rintro rfl; exact nan_lt hz
    rw [if_neg (by rw [any_nan_iff]; simp [ha, hn]), if_pos hz]
  · intro hp
    have h : ¬ (limMin : FV f) > p := by
      cases p with
      | nan => simp
      | inf s => cases s <;> simp [limMin] at hp ⊢
      | fin q z => rw [fin_lt] at hp; rw [limMin, gt_iff, fin_lt]; linarith
    rw [if_neg h, if_pos hp]
    split <;> rfl
  · intro ha z
    rw [if_neg (by rw [any_nan_iff]; simp [ha]), if_neg, if_neg, if_pos]
    · rfl
    · rw [fin_sub, sub_self, mk_zero, limMin_gt_fabs, abs_zero]; exact minNormal_pos f
    · rw [gt_iff, fin_lt]; linarith
    · rw [limMin, gt_iff, fin_lt]; linarith
  · intro ha q z h1 h2
    have hn : a ≠ nan := by rintro rfl; exact nan_lt ha
    rw [if_neg (by rw [any_nan_iff]; simp [hn]), if_neg, if_neg, if_neg, if_pos ha]
    · rw [fin_sub]
      refine not_tiny_mk (le_trans ?_ (by linarith : (1:ℚ)/2 ≤ 1 - q))
      rw [show (1/2 : ℚ) = pow2 (-1) by norm_num [pow2_eq]]; exact pow2_le (by norm_num)
    · rw [gt_iff, fin_lt]; linarith
    · rw [limMin, gt_iff, fin_lt]; linarith

/-- C58: outside the domain: a negative shape parameter of `incomplete_gamma_inv` yields `0`, not NaN. -/
theorem C58_outside : incomplete_gamma_inv (fin (-2) false : FV binary64) (fin (1/2) false) = .ok (fin 0 false) :=
  (C58_gamma_boundary _ nan).2.2.2.2 (by decide +kernel) (1/2) false (by decide +kernel) (by norm_num)

example : OkV (incomplete_beta_inv (fin 2 false : FV binary64) (fin 3 false) (fin (1/2) false)) :=
  C58_beta_outcome rfl _ _ (by decide +kernel)
example : incomplete_beta_inv (fin 2 false : FV binary64) (fin 3 false) (fin 1 false) = .ok (fin 1 false) :=
  (C58_beta_boundary _ _ nan).2.2 (by simp) (by simp) false
example : incomplete_gamma_inv (fin 2 false : FV binary64) (fin 1 false) = .ok (inf false) :=
  (C58_gamma_boundary _ nan).2.2.2.1 (by simp) false

end Gcem.Props
