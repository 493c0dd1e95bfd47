import Verif.Analysis.SqrtScale
import Verif.Props.PowFloat

/-!
# C25, C26, C27: square root
-/

namespace Gcem.Props
open Gcem FV
variable {f : Fmt}

/-! ## Crude bounds on the iterates (any argument below 1) -/

theorem sqrt_step_crude {q a : ℚ} {x xn : FV f} {k : ℕ} (hq : 0 < q) (hq1 : q ≤ 1) (hx : Is x q)
    (hxn : Is xn a) (hk : k ≤ 100) (h1 : 1 / 2 ^ k ≤ a) (h2 : a ≤ 2 ^ k) :
    ∃ a', Is (d 0.5 * (xn + x / xn)) a' ∧ 1 / 2 ^ (k + 1) ≤ a' ∧ a' ≤ 2 ^ (k + 1) := by
  have hp : (0:ℚ) < 2 ^ k := by positivity
  have ha : 0 < a := lt_of_lt_of_le (by positivity) h1
  have hk2 : (2:ℚ) ^ k ≤ 2 ^ 100 := pow_le_pow_right₀ (by norm_num) hk
  have hqa : q / a ≤ 2 ^ k := by
    rw [div_le_iff₀ ha]
    rw [div_le_iff₀ hp] at h1
    nlinarith
  have hqa0 : 0 < q / a := by positivity
  have hy : rnd f (q / a) ≤ 2 ^ k := rnd_le_of_rep rep_pow2_nat hqa
  have hy0 : 0 ≤ rnd f (q / a) := rnd_nonneg hqa0.le
  have hS : rnd f (a + rnd f (q / a)) ≤ 2 ^ (k + 1) := rnd_le_of_rep rep_pow2_nat (by
    rw [pow_succ]; linarith)
  have hrepneg : ∀ m : ℕ, m ≤ 102 → Rep f (1 / 2 ^ m) := by
    intro m hm
    have : (1:ℚ) / 2 ^ m = pow2 (-m) := by rw [pow2_eq]; simp
    rw [this]
    exact rep_pow2 (by
      have : f.emin ≤ -149 := by rcases f with ⟨⟨⟩, ⟨⟩⟩ <;> decide
      omega)
  have hS0 : 1 / 2 ^ k ≤ rnd f (a + rnd f (q / a)) := le_rnd_of_rep (hrepneg k (by omega)) (by linarith)
  have hkp : (2:ℚ) ^ (k + 1) = 2 ^ k * 2 := pow_succ _ _
  have hnn : (0:ℚ) < 1 / 2 ^ k := by positivity
  refine ⟨_, is_d_half.mul (hxn.add (hx.div hxn ha.ne' (nov ?_)) (nov ?_)) (nov ?_), ?_, ?_⟩
  · rw [abs_of_pos hqa0]; norm_num at hk2 ⊢; linarith
  · rw [abs_of_pos (by linarith)]; norm_num at hk2 ⊢; linarith
  · rw [abs_of_pos (by linarith)]; norm_num at hk2 ⊢; linarith
  · refine le_rnd_of_rep (hrepneg (k + 1) (by omega)) ?_
    rw [hkp]
    have : (1:ℚ) / (2 ^ k * 2) = 1 / 2 * (1 / 2 ^ k) := by field_simp
    rw [this]; linarith
  · refine rnd_le_of_rep rep_pow2_nat ?_
    linarith

theorem sqrt_recur_crude {q : ℚ} {x : FV f} (hq : 0 < q) (hq1 : q ≤ 1) (hx : Is x q) :
    ∀ (left k : ℕ) (a : ℚ) (xn : FV f), k + left ≤ 101 → Is xn a → 1 / 2 ^ k ≤ a → a ≤ 2 ^ k →
      ∃ r, Is (sqrt_recur x left xn) r ∧ 1 / 2 ^ (k + left) ≤ r ∧ r ≤ 2 ^ (k + left) := by
  intro left
  induction left with
  | zero =>
    intro k a xn hk hxn h1 h2
    refine ⟨a, ?_, h1, h2⟩
    rw [sqrt_recur]; simpa using hxn
  | succ n ih =>
    intro k a xn hk hxn h1 h2
    rw [sqrt_recur]
    split_ifs with hstop
    · refine ⟨a, hxn, le_trans ?_ h1, h2.trans ?_⟩
      · exact one_div_le_one_div_of_le (by positivity) (pow_le_pow_right₀ (by norm_num) (by omega))
      · exact pow_le_pow_right₀ (by norm_num) (by omega)
    · obtain ⟨a', ha', l, u⟩ := sqrt_step_crude hq hq1 hx hxn (by omega) h1 h2
      have := ih (k + 1) a' _ (by omega) ha' l u
      rwa [show k + 1 + n = k + (n + 1) by ring] at this

/-- The first iterate of an argument at most `1/4` is between `1/2` and `2`. -/
theorem sqrt_recur_first {q : ℚ} {x : FV f} (hf : f.exact = false) (hq : minNormal f ≤ q) (hq1 : q ≤ 1 / 4)
    (hx : Is x q) :
    ∃ r, Is (sqrt_recur x 100 (x / i 2)) r ∧ 1 / 2 ^ 100 ≤ r ∧ r ≤ 2 ^ 100 := by
  have hmn := minNormal_pos f
  have hq0 : 0 < q := by linarith
  have hone : Rep f 1 := by have := rep_pow2_nat (f := f) (n := 0); simpa using this
  set a := rnd f (q / 2) with had
  have herr := rnd_err_all (f := f) (q / 2)
  rw [abs_of_pos (by linarith : 0 < q / 2)] at herr
  have hpe : pow2 f.emin = 2 * (uro f * minNormal f) := by
    unfold uro minNormal
    rw [← pow2_add, ← pow2_succ]; congr 1; ring
  have hu' := uro_pos f
  have hu1' := uro_lt_rat f
  obtain ⟨e1, e2⟩ := abs_le.1 herr
  rw [hpe] at e1 e2
  have hqa : 2 / 5 * q ≤ a := by nlinarith
  have hqa2 : a ≤ 3 / 4 * q := by nlinarith
  have ha0 : 0 < a := by linarith
  have hxn : Is (x / i 2) a := hx.div (by rw [i_two]; exact is_fin _ _) (by norm_num)
    (nov (by rw [abs_of_pos (by linarith)]; norm_num; linarith))
  have hy1 : q / a ≤ 3 := by rw [div_le_iff₀ ha0]; linarith
  have hy2 : 1 ≤ q / a := by rw [le_div_iff₀ ha0]; linarith
  have hY1 : rnd f (q / a) ≤ 3 := rnd_le_of_rep (rep_nat_small (n := 3) (by decide)) hy1
  have hY2 : 1 ≤ rnd f (q / a) := le_rnd_of_rep hone hy2
  set y := rnd f (q / a) with hyd
  have hY : Is (x / (x / i 2)) y :=
    hx.div hxn ha0.ne' (nov (by rw [abs_of_pos (by linarith)]; norm_num; linarith))
  have hhalf : Rep f (1 / 2) := by
    have := rep_pow2 (f := f) (e := -1) (by
      have : f.emin ≤ -149 := by rcases f with ⟨⟨⟩, ⟨⟩⟩ <;> decide
      omega)
    norm_num [pow2_eq] at this ⊢; exact this
  have hquarter : Rep f (1 / 4) := by
    have := rep_pow2 (f := f) (e := -2) (by
      have : f.emin ≤ -149 := by rcases f with ⟨⟨⟩, ⟨⟩⟩ <;> decide
      omega)
    norm_num [pow2_eq] at this ⊢; exact this
  have hD : Is (fabs (x / i 2 - x / (x / i 2))) |rnd f (a - y)| :=
    (hxn.sub hY (nov (by rw [abs_le]; norm_num; constructor <;> linarith))).fabs
  have hDl : 1 / 2 ≤ |rnd f (a - y)| := by
    have : 1 / 2 ≤ rnd f (-(a - y)) := le_rnd_of_rep hhalf (by linarith)
    rw [rnd_neg] at this
    exact this.trans (neg_le_abs _)
  have hDu : |rnd f (a - y)| ≤ 2 ^ 2 := abs_rnd_le_of_rep rep_pow2_nat (by
    rw [abs_le]; norm_num; constructor <;> linarith)
  have hO : Is (i 1 + x / i 2) (rnd f (1 + a)) := by
    rw [i_one]; exact (is_fin 1 false).add hxn (nov (by rw [abs_of_pos (by linarith)]; norm_num; linarith))
  have hOl : 1 ≤ rnd f (1 + a) := le_rnd_of_rep hone (by linarith)
  have hOu : rnd f (1 + a) ≤ 2 ^ 1 := rnd_le_of_rep rep_pow2_nat (by norm_num; linarith)
  norm_num at hOu hDu
  have hO0 : rnd f (1 + a) ≠ 0 := by linarith
  have hlm : Is (limMin : FV f) (minNormal f) := is_fin _ _
  have hQl : 1 / 4 ≤ |rnd f (a - y)| / rnd f (1 + a) := by
    rw [le_div_iff₀ (by linarith)]; linarith
  have hQu : |rnd f (a - y)| / rnd f (1 + a) ≤ 4 := by
    rw [div_le_iff₀ (by linarith)]; linarith
  have hns : ¬ (fabs (x / i 2 - x / (x / i 2)) / (i 1 + x / i 2) < limMin) := by
    rw [(hD.div hO hO0 (nov (by rw [abs_of_pos (by linarith)]; norm_num; linarith))).lt_iff hlm, not_lt]
    refine le_trans (minNormal_lt_one f).le (le_rnd_of_rep hquarter hQl)
  rw [sqrt_recur, if_neg hns]
  have hS1 : rnd f (a + y) ≤ 2 ^ 2 := rnd_le_of_rep rep_pow2_nat (by norm_num; linarith)
  have hS2 : 1 ≤ rnd f (a + y) := le_rnd_of_rep hone (by linarith)
  norm_num at hS1
  have hN : Is (d 0.5 * (x / i 2 + x / (x / i 2))) (rnd f (1 / 2 * rnd f (a + y))) :=
    is_d_half.mul (hxn.add hY (nov (by rw [abs_of_pos (by linarith)]; norm_num; linarith)))
      (nov (by rw [abs_of_pos (by linarith)]; norm_num; linarith))
  have hl : 1 / 2 ≤ rnd f (1 / 2 * rnd f (a + y)) := le_rnd_of_rep hhalf (by linarith)
  have hur : rnd f (1 / 2 * rnd f (a + y)) ≤ 2 := by
    refine rnd_le_of_rep (rep_nat_small (n := 2) (by decide)) ?_
    linarith
  have := sqrt_recur_crude hq0 (by linarith) hx 99 1 _ _ (by norm_num) hN (by norm_num; linarith) (by
    norm_num; exact hur)
  simpa using this

/-! ## The whole function -/

/-- Bound on the number of argument-reduction steps. -/
def sqrtLev : FTy → ℕ | .float => 8 | .double => 43 | .ldouble => 634

theorem le_lev {q : ℚ} (h : q < pow2 f.emax) : q ≤ lev (sqrtLev f.ty) := by
  refine h.le.trans ?_
  rcases f with ⟨t, e⟩
  cases t
  · change pow2 128 ≤ 2 ^ 130
    rw [← pow2_nat]; exact pow2_le (by decide)
  · change pow2 1024 ≤ 2 ^ 1040
    rw [← pow2_nat]; exact pow2_le (by decide)
  · change pow2 16384 ≤ 2 ^ 16406
    rw [← pow2_nat]; exact pow2_le (by decide)

theorem lt_emax {q : ℚ} (hf : f.exact = false) (h0 : 0 ≤ q) (hov : overflows f q = false) :
    q < pow2 f.emax := by
  rcases overflows_false_iff.1 hov with h | h
  · rw [hf] at h; cases h
  · rwa [abs_of_nonneg h0] at h

theorem sqrtLev_u (f : Fmt) : ((3 * sqrtLev f.ty : ℕ) : ℝ) * uro f ≤ 1 / 1024 := by
  have h := uro_le f
  have hu := uro_pos_real f
  have : ((3 * sqrtLev f.ty : ℕ) : ℝ) ≤ 1902 := by
    have : 3 * sqrtLev f.ty ≤ 1902 := by rcases f with ⟨⟨⟩, ⟨⟩⟩ <;> decide
    exact_mod_cast this
  nlinarith

theorem sqrtLev_fuel (f : Fmt) : sqrtLev f.ty < recFuel := by
  have : sqrtLev f.ty < 635 := by rcases f with ⟨⟨⟩, ⟨⟩⟩ <;> decide
  refine this.trans ?_
  unfold recFuel; norm_num

/-- The branches of `sqrt_check` for a normal positive argument. -/
theorem sqrt_normal {q : ℚ} {z : Bool} (hx : Valid (fin q z : FV f)) (hq : minNormal f ≤ q) :
    (|1 - q| < minNormal f ∧ sqrt (fin q z : FV f) = .ok (fin q z)) ∨
      sqrt (fin q z : FV f) = sqrt_simplify recFuel (fin q z) (i 1) := by
  have hmn := minNormal_pos f
  have hq0 : 0 < q := by linarith
  unfold sqrt sqrt_check
  rw [if_neg (by simp), if_neg (by rw [i_zero]; simp; linarith), if_neg (by simp),
    if_neg (by rw [limMin_gt_fabs, abs_of_pos hq0]; linarith)]
  have hone : Rep f 1 := by have := rep_pow2_nat (f := f) (n := 0); simpa using this
  have hov : overflows f (rnd f (1 - q)) = false := by
    rcases le_total q 1 with h | h
    · exact nov (by rw [abs_of_nonneg (by linarith)]; norm_num; linarith)
    · exact nov_of_lt hx.rep hx.novf (by rw [abs_of_nonpos (by linarith), abs_of_pos hq0]; linarith)
  obtain ⟨w, hw⟩ : Is (i 1 - (fin q z : FV f)) (rnd f (1 - q)) := by
    rw [i_one]; exact (is_fin 1 false).sub (is_fin q z) hov
  rw [hw]
  split_ifs with h
  · left
    rw [limMin_gt_fabs] at h
    refine ⟨?_, rfl⟩
    by_contra hc; push Not at hc
    rcases le_abs.1 hc with hc | hc
    · exact absurd ((rnd_pos hc).trans (le_abs_self _)) (not_le.2 h)
    · have := rnd_pos hc
      rw [rnd_neg] at this
      exact absurd (this.trans (neg_le_abs _)) (not_le.2 h)
  · right; rfl

theorem valid_sqrt_recur (x : FV f) : ∀ (left : ℕ) (xn : FV f), Valid xn → Valid (sqrt_recur x left xn) := by
  intro left
  induction left with
  | zero => intro xn h; rw [sqrt_recur]; simpa using h
  | succ n ih =>
    intro xn h
    rw [sqrt_recur]
    split_ifs
    · exact h
    · exact ih _ (valid_mul _ _)

/-- For a normal argument at most 4 the result is the outcome of the Newton iteration. -/
theorem sqrt_le4 {q : ℚ} {z : Bool} (hx : Valid (fin q z : FV f)) (hq : minNormal f ≤ q) (h4 : q ≤ 4) :
    (|1 - q| < minNormal f ∧ sqrt (fin q z : FV f) = .ok (fin q z)) ∨
      sqrt (fin q z : FV f) = .ok (sqrt_recur (fin q z) 100 (fin q z / i 2)) := by
  rcases sqrt_normal hx hq with h | h
  · exact Or.inl h
  · right
    have hfu : recFuel = (2 ^ 70 - 1) + 1 := by unfold recFuel; norm_num
    rw [h, hfu, (reduce_done (m := i 1) (is_fin q z) hx.rep (le_refl 1) h4).2 (2 ^ 70 - 1), i_one,
      one_mul_fv (valid_sqrt_recur (fin q z) 100 (fin q z / i 2 : FV f) (valid_div _ _))]

/-! ## C25 -/

/-- C25: special values.  NaN gives NaN; everything below zero (including the negative subnormals and
`-inf`) gives NaN; `+inf` gives `+inf`; zeros of either sign and the positive subnormals give `+0`;
one gives one. -/
theorem C25_special :
    sqrt (nan : FV f) = .ok nan ∧
    (∀ x : FV f, x < i 0 → sqrt x = .ok nan) ∧
    sqrt (inf false : FV f) = .ok (inf false) ∧
    (∀ (q : ℚ) (z : Bool), 0 ≤ q → q < minNormal f → sqrt (fin q z : FV f) = .ok (fin 0 false)) ∧
    sqrt (fin 1 false : FV f) = .ok (fin 1 false) := by
  refine ⟨by simp [sqrt, sqrt_check, limNaN], ?_, ?_, ?_, ?_⟩
  · intro x hx
    unfold sqrt sqrt_check
    split_ifs
    · rfl
    · rfl
  · unfold sqrt sqrt_check
    rw [if_neg (by simp), if_neg (by simp), if_pos (by simp)]
  · intro q z h0 h
    unfold sqrt sqrt_check
    rw [if_neg (by simp), if_neg (by simp; exact h0), if_neg (by simp),
      if_pos (by rw [limMin_gt_fabs, abs_of_nonneg h0]; exact h)]
    simp
  · have hv := valid_i (f := f) 1
    rw [i_one] at hv
    unfold sqrt sqrt_check
    have hm := minNormal_lt_one f
    have e : (i 1 - fin 1 false : FV f) = fin 0 false := by
      rw [i_one, fin_sub]; simp
    rw [if_neg (by simp), if_neg (by simp), if_neg (by simp),
      if_neg (by rw [limMin_gt_fabs]; norm_num; linarith),
      if_pos (by rw [e, limMin_gt_fabs]; simpa using minNormal_pos f)]

/-- C25: for every value of every type the call returns (no undefined behaviour, the recursion ends);
for a normal positive argument the result is finite and positive. -/
theorem C25_total (hf : f.exact = false) (x : FV f) (hx : Valid x) :
    (∃ r, sqrt x = .ok r) ∧
    (∀ q z, x = fin q z → minNormal f ≤ q → ∃ r, sqrt x = .ok (fin r false) ∧ 0 < r) := by
  have key : ∀ q z, x = fin q z → minNormal f ≤ q → ∃ r, sqrt x = .ok (fin r false) ∧ 0 < r := by
    rintro q z rfl hq
    have hmn := minNormal_pos f
    have hq0 : 0 < q := by linarith
    rcases sqrt_normal hx hq with ⟨-, h⟩ | h
    · exact ⟨q, by rw [h, hx.z_false hq0.ne'], hq0⟩
    rw [h]
    rcases le_or_gt (1/4) q with h4 | h4
    · obtain ⟨r, hr, he⟩ := sqrt_simplify_acc hf (is_fin q z) hx.rep hx.novf
        (by
          refine le_trans ?_ h4
          have : pow2 (-2) = 1 / 4 := by norm_num [pow2_eq]
          rw [← this]
          exact pow2_le (by rcases f with ⟨⟨⟩, ⟨⟩⟩ <;> decide))
        (le_lev (lt_emax hf hq0.le hx.novf)) (sqrtLev_u f) (sqrtLev_fuel f)
      refine ⟨r, hr, ?_⟩
      have hs : 0 < √(q:ℝ) := Real.sqrt_pos.2 (by exact_mod_cast hq0)
      have h1 := (abs_le.1 he).1
      have hu := uro_pos_real f
      have hu1 := uro_le f
      have h2 := sqrtLev_u f
      push_cast at h2
      have : 0 < (r:ℝ) / √(q:ℝ) := by nlinarith
      have := (div_pos_iff_of_pos_right hs).1 this
      exact_mod_cast this
    · obtain ⟨r, hr, hl, -⟩ := sqrt_recur_first hf hq h4.le (is_fin q z)
      have hfu : recFuel = (2 ^ 70 - 1) + 1 := by unfold recFuel; norm_num
      rw [hfu, (reduce_done (m := i 1) (is_fin q z) hx.rep (le_refl 1) (by linarith)).2 (2 ^ 70 - 1)]
      have hr0 : 0 < r := lt_of_lt_of_le (by positivity) hl
      obtain ⟨w, hw⟩ := hr
      have hv := valid_sqrt_recur (fin q z) 100 (fin q z / i 2 : FV f) (valid_div _ _)
      rw [i_one, one_mul_fv hv, hw]
      rw [hw] at hv
      exact ⟨r, by rw [hv.z_false hr0.ne'], hr0⟩
  refine ⟨?_, key⟩
  cases x with
  | nan => exact ⟨_, C25_special.1⟩
  | inf s =>
    cases s
    · exact ⟨_, C25_special.2.2.1⟩
    · exact ⟨_, C25_special.2.1 _ (by simp)⟩
  | fin q z =>
    rcases lt_or_ge q 0 with h | h
    · exact ⟨_, C25_special.2.1 _ (by simp; exact h)⟩
    rcases lt_or_ge q (minNormal f) with h2 | h2
    · exact ⟨_, C25_special.2.2.2.1 q z h h2⟩
    · obtain ⟨r, hr, -⟩ := key q z rfl h2
      exact ⟨_, hr⟩

/-! ## C26 -/

theorem sqrt_one_close {q : ℚ} (hq : 0 < q) (h : |1 - q| < minNormal f) :
    |(q:ℝ) / √(q:ℝ) - 1| ≤ 3 * uro f := by
  have hq' : (0:ℝ) < q := by exact_mod_cast hq
  have hs := Real.sqrt_pos.2 hq'
  have hsq := Real.sq_sqrt hq'.le
  have hmu : minNormal f ≤ uro f := pow2_le (by rcases f with ⟨⟨⟩, ⟨⟩⟩ <;> decide)
  have h1 : |1 - (q:ℝ)| ≤ uro f := by
    have : |1 - q| ≤ uro f := h.le.trans hmu
    exact_mod_cast this
  have e : (q:ℝ) / √(q:ℝ) = √(q:ℝ) := by rw [div_eq_iff hs.ne', ← sq, hsq]
  rw [e]
  have h2 : |√(q:ℝ) ^ 2 - 1| ≤ (uro f : ℝ) := by rw [hsq, abs_sub_comm]; exact h1
  have hu := uro_le f
  have hu0 := uro_pos_real f
  have := sq_close hs.le (by linarith) h2
  linarith

theorem sqrt_acc (hf : f.exact = false) {q : ℚ} {z : Bool} (hx : Valid (fin q z : FV f))
    (hq : pow2 (2 * sqrtLowE f.ty) ≤ q) :
    ∃ r : ℚ, sqrt (fin q z : FV f) = .ok (fin r false) ∧
      |(r:ℝ) / √(q:ℝ) - 1| ≤ (1.52 * sqrtLev f.ty + 5) * uro f := by
  have hq0 : 0 < q := lt_of_lt_of_le (pow2_pos _) hq
  have hqn : minNormal f ≤ q := le_trans (pow2_le (by rcases f with ⟨⟨⟩, ⟨⟩⟩ <;> decide)) hq
  rcases sqrt_normal hx hqn with ⟨h1, h⟩ | h
  · refine ⟨q, by rw [h, hx.z_false hq0.ne'], ?_⟩
    have := sqrt_one_close hq0 h1
    have hu0 := uro_pos_real f
    have : (0:ℝ) ≤ sqrtLev f.ty := by positivity
    nlinarith
  · rw [h]
    exact sqrt_simplify_acc hf (is_fin q z) hx.rep hx.novf hq (le_lev (lt_emax hf hq0.le hx.novf))
      (sqrtLev_u f) (sqrtLev_fuel f)

theorem abs_of_ratio {r s c : ℝ} (hs : 0 < s) (h : |r / s - 1| ≤ c) : |r - s| ≤ c * s := by
  have e : r - s = (r / s - 1) * s := by field_simp
  rw [e, abs_mul, abs_of_pos hs]
  exact mul_le_mul_of_nonneg_right h hs.le

/-- C26 (float): for every normal positive `float`, the result is finite and within
`18 · 2^-24` (relative) of the real square root. -/
theorem C26_float (q : ℚ) (z : Bool) (hx : Valid (fin q z : FV binary32)) (hq : (1:ℚ) / 2 ^ 126 ≤ q) :
    ∃ r : ℚ, sqrt (fin q z : FV binary32) = .ok (fin r false) ∧
      |(r:ℝ) - √(q:ℝ)| ≤ 18 / 2 ^ 24 * √(q:ℝ) := by
  have hp : pow2 (2 * sqrtLowE binary32.ty) = 1 / 2 ^ 126 := by
    rw [pow2_eq]; norm_num [sqrtLowE]
  have hq0 : 0 < q := lt_of_lt_of_le (by positivity) hq
  obtain ⟨r, hr, he⟩ := sqrt_acc rfl hx (by rw [hp]; exact hq)
  refine ⟨r, hr, abs_of_ratio (Real.sqrt_pos.2 (by exact_mod_cast hq0)) (he.trans ?_)⟩
  have hu : (uro binary32 : ℝ) = 1 / 2 ^ 24 := uro_eq _
  rw [hu]
  norm_num [sqrtLev]

/-- C26 (double): for every finite `double` from `2^-180` up, the result is finite and within
`71 · 2^-53` (relative) of the real square root. -/
theorem C26_double (q : ℚ) (z : Bool) (hx : Valid (fin q z : FV binary64)) (hq : (1:ℚ) / 2 ^ 180 ≤ q) :
    ∃ r : ℚ, sqrt (fin q z : FV binary64) = .ok (fin r false) ∧
      |(r:ℝ) - √(q:ℝ)| ≤ 71 / 2 ^ 53 * √(q:ℝ) := by
  have hp : pow2 (2 * sqrtLowE binary64.ty) = 1 / 2 ^ 180 := by
    rw [pow2_eq]; norm_num [sqrtLowE]
  have hq0 : 0 < q := lt_of_lt_of_le (by positivity) hq
  obtain ⟨r, hr, he⟩ := sqrt_acc rfl hx (by rw [hp]; exact hq)
  refine ⟨r, hr, abs_of_ratio (Real.sqrt_pos.2 (by exact_mod_cast hq0)) (he.trans ?_)⟩
  have hu : (uro binary64 : ℝ) = 1 / 2 ^ 53 := uro_eq _
  rw [hu]
  norm_num [sqrtLev]

/-- C26 (long double): for every finite `long double` from `2^-180` up, the result is finite and
within `969 · 2^-64` (relative) of the real square root. -/
theorem C26_long_double (q : ℚ) (z : Bool) (hx : Valid (fin q z : FV x87)) (hq : (1:ℚ) / 2 ^ 180 ≤ q) :
    ∃ r : ℚ, sqrt (fin q z : FV x87) = .ok (fin r false) ∧
      |(r:ℝ) - √(q:ℝ)| ≤ 969 / 2 ^ 64 * √(q:ℝ) := by
  have hp : pow2 (2 * sqrtLowE x87.ty) = 1 / 2 ^ 180 := by
    rw [pow2_eq]; norm_num [sqrtLowE]
  have hq0 : 0 < q := lt_of_lt_of_le (by positivity) hq
  obtain ⟨r, hr, he⟩ := sqrt_acc rfl hx (by rw [hp]; exact hq)
  refine ⟨r, hr, abs_of_ratio (Real.sqrt_pos.2 (by exact_mod_cast hq0)) (he.trans ?_)⟩
  have hu : (uro x87 : ℝ) = 1 / 2 ^ 64 := uro_eq _
  rw [hu]
  norm_num [sqrtLev]

/-- C26 (all types): up to 4, where no argument reduction happens, the result is within
`3 · 2^-p` (relative) of the real square root, `p` the number of significand bits. -/
theorem C26_upto4 (hf : f.exact = false) (q : ℚ) (z : Bool) (hx : Valid (fin q z : FV f))
    (hn : minNormal f ≤ q) (hq : (1:ℚ) / 2 ^ 180 ≤ q) (h4 : q ≤ 4) :
    ∃ r : ℚ, sqrt (fin q z : FV f) = .ok (fin r false) ∧
      |(r:ℝ) - √(q:ℝ)| ≤ 3 / 2 ^ f.prec * √(q:ℝ) := by
  have hq0 : 0 < q := lt_of_lt_of_le (by positivity) hq
  have hlow : pow2 (2 * sqrtLowE f.ty) ≤ q := by
    rcases f with ⟨t, e⟩
    cases t
    · exact hn
    all_goals
      refine le_trans (le_of_eq ?_) hq
      rw [pow2_eq]; norm_num [sqrtLowE]
  have hu : 3 * (uro f : ℝ) = 3 / 2 ^ f.prec := by
    rw [uro_eq]; ring
  rw [← hu]
  have hs := Real.sqrt_pos.2 (show (0:ℝ) < q by exact_mod_cast hq0)
  rcases sqrt_le4 hx hn h4 with ⟨h1, h⟩ | h
  · exact ⟨q, by rw [h, hx.z_false hq0.ne'], abs_of_ratio hs (sqrt_one_close hq0 h1)⟩
  · obtain ⟨r, ⟨w, hw⟩, hr⟩ := sqrt_recur_spec (sqrtArg_of hf hlow h4) (is_fin q z)
    have hv := valid_sqrt_recur (fin q z) 100 (fin q z / i 2 : FV f) (valid_div _ _)
    rw [hw] at hv
    refine ⟨r, ?_, abs_of_ratio hs hr⟩
    rw [h, hw, hv.z_false]
    rintro rfl
    have hu1 := uro_le f
    have := (abs_le.1 hr).1
    simp at this
    linarith

/-- The hypotheses of `C26_double` hold, for instance, for `x = 2`; the result is one unit in the
last place below the correctly rounded root. -/
example : Valid (fin 2 false : FV binary64) ∧ (1:ℚ) / 2 ^ 180 ≤ 2 ∧
    sqrt (fin 2 false : FV binary64) = .ok (fin (6369051672525772 / 2 ^ 52) false) := by
  refine ⟨by decide +kernel, by norm_num, by decide +kernel⟩

/-! ## C27 -/

/-- C27: for every normal positive `x ≤ 1/4` of every type, `sqrt(x)` is at least `2^-100`: each of
the at most 100 iterations at best halves the iterate. -/
theorem C27_lower_bound (hf : f.exact = false) (q : ℚ) (z : Bool) (hx : Valid (fin q z : FV f))
    (hn : minNormal f ≤ q) (h4 : q ≤ 1 / 4) :
    ∃ r : ℚ, sqrt (fin q z : FV f) = .ok (fin r false) ∧ 1 / 2 ^ 100 ≤ r := by
  have hmn := minNormal_pos f
  rcases sqrt_le4 hx hn (by linarith) with ⟨h1, -⟩ | h
  · have := minNormal_lt_one f
    have := (abs_lt.1 h1).2
    exfalso
    linarith
  · obtain ⟨r, ⟨w, hw⟩, hr, -⟩ := sqrt_recur_first hf hn h4 (is_fin q z)
    have hv := valid_sqrt_recur (fin q z) 100 (fin q z / i 2 : FV f) (valid_div _ _)
    rw [hw] at hv
    refine ⟨r, ?_, hr⟩
    rw [h, hw, hv.z_false]
    rintro rfl
    norm_num at hr

/-- C27: hence for every `k` and every normal `x ≤ 2^-(200+2k)` the result is at least `2^k` times the
real square root. -/
theorem C27_wrong_by_factor (hf : f.exact = false) (k : ℕ) (q : ℚ) (z : Bool)
    (hx : Valid (fin q z : FV f)) (hn : minNormal f ≤ q) (hq : q ≤ 1 / 2 ^ (200 + 2 * k)) :
    ∃ r : ℚ, sqrt (fin q z : FV f) = .ok (fin r false) ∧ 2 ^ k * √(q:ℝ) ≤ r := by
  have hp : (1:ℚ) / 2 ^ (200 + 2 * k) ≤ 1 / 4 := by
    apply one_div_le_one_div_of_le (by norm_num)
    calc (4:ℚ) = 2 ^ 2 := by norm_num
      _ ≤ _ := pow_le_pow_right₀ (by norm_num) (by omega)
  obtain ⟨r, h1, h2⟩ := C27_lower_bound hf q z hx hn (hq.trans hp)
  refine ⟨r, h1, ?_⟩
  have h3 : √(q:ℝ) ≤ 1 / 2 ^ (100 + k) := by
    apply Real.sqrt_le_iff.2
    refine ⟨by positivity, ?_⟩
    have : (q:ℝ) ≤ 1 / 2 ^ (200 + 2 * k) := by
      have := (Rat.cast_le (K := ℝ)).2 hq
      push_cast at this; exact this
    refine this.trans (le_of_eq ?_)
    rw [div_pow, one_pow, ← pow_mul]; congr 2; ring
  have h4 : (1:ℝ) / 2 ^ 100 ≤ r := by
    have := (Rat.cast_le (K := ℝ)).2 h2
    push_cast at this; exact this
  calc (2:ℝ) ^ k * √(q:ℝ) ≤ 2 ^ k * (1 / 2 ^ (100 + k)) := by gcongr
    _ = 1 / 2 ^ 100 := by rw [pow_add]; field_simp
    _ ≤ r := h4

/-- The least normal `double` is such an argument: `sqrt` returns about `1.6e-30` where the real root
is `2^-511 ≈ 1.5e-154`, i.e. it is wrong by a factor of more than `2^411`. -/
example : Valid (fin (pow2 (-1022)) false : FV binary64) ∧ minNormal binary64 ≤ pow2 (-1022) ∧
    pow2 (-1022) ≤ 1 / 2 ^ (200 + 2 * 411) := by
  refine ⟨by decide +kernel, by decide +kernel, by norm_num [pow2_eq]⟩

end Gcem.Props
