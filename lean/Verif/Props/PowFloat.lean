import Verif.Fp.Split
import Verif.Model.Elem

/-!
# C11, C12: integral powers of floating-point bases
-/

namespace Gcem.Props
open Gcem FV
variable {f : Fmt}

/-! ## Algebra of the square-and-multiply recursion -/

theorem recur_neg_val (b v : FV f) (n : ℕ) :
    pow_integral_compute_recur b (-v) n = -pow_integral_compute_recur b v n := by
  induction n using Nat.strong_induction_on generalizing b v with
  | _ n ih =>
    rw [pow_integral_compute_recur, pow_integral_compute_recur.eq_def b v n]
    by_cases h1 : n > 1
    · rw [if_pos h1, if_pos h1]
      have hlt : n / 2 < n := by omega
      by_cases h2 : n % 2 = 1
      · rw [if_pos h2, if_pos h2, neg_mul', ih _ hlt]
      · rw [if_neg h2, if_neg h2, ih _ hlt]
    · rw [if_neg h1, if_neg h1]
      by_cases h2 : n = 1
      · rw [if_pos h2, if_pos h2, neg_mul']
      · rw [if_neg h2, if_neg h2]

theorem recur_neg_base (b v : FV f) (n : ℕ) :
    pow_integral_compute_recur (-b) v n
      = if n % 2 = 1 then -pow_integral_compute_recur b v n else pow_integral_compute_recur b v n := by
  rw [pow_integral_compute_recur, pow_integral_compute_recur.eq_def b v n]
  by_cases h1 : n > 1
  · rw [if_pos h1, if_pos h1]
    by_cases h2 : n % 2 = 1
    · rw [if_pos h2, if_pos h2, if_pos h2, neg_mul_neg', mul_neg', recur_neg_val]
    · simp only [if_neg h2, neg_mul_neg']
  · rw [if_neg h1, if_neg h1]
    by_cases h2 : n = 1
    · subst h2; simp [mul_neg']
    · have : n = 0 := by omega
      subst this; simp

theorem one_mul_fv {x : FV f} (hx : Valid x) : (fin 1 false : FV f) * x = x := by
  cases x with
  | nan => simp
  | inf s => change mul _ _ = _; simp [mul, sign, not_lt.2 (zero_le_one (α := ℚ))]
  | fin q z =>
    rw [fin_mul, one_mul, mk_of_rep hx.rep hx.novf]
    by_cases h : q = 0
    · subst h; simp [sign, not_lt.2 (zero_le_one (α := ℚ))]
    · have := hx.z_false h; subst this; simp [h]

theorem recur_one (n : ℕ) :
    pow_integral_compute_recur (fin 1 false : FV f) (fin 1 false) n = fin 1 false := by
  have h11 : (fin 1 false : FV f) * fin 1 false = fin 1 false := by
    have := valid_i (f := f) 1; rw [i_one] at this; exact one_mul_fv this
  induction n using Nat.strong_induction_on with
  | _ n ih =>
    rw [pow_integral_compute_recur]
    by_cases h1 : n > 1
    · rw [if_pos h1, h11, ih _ (by omega)]; simp
    · rw [if_neg h1, h11]; simp

/-! ## C11 -/

/-- C11: exponent 0 gives 1 and exponent 1 the base, for every base including NaN. -/
theorem C11_zero_one (lo : ℤ) (hi : ℕ) (x : FV f) :
    pow_integral_compute lo hi x 0 = i 1 ∧ pow_integral_compute lo hi x 1 = x := by
  unfold pow_integral_compute pow_integral_nonneg
  constructor <;> simp

/-- C11: base 1 gives 1 for every exponent strictly between the limits of its type
(`lo < e < hi`, `-e ≠ hi`). -/
theorem C11_base_one (lo : ℤ) (hi : ℕ) (e : ℤ) (h1 : e ≠ lo) (h2 : e ≠ hi) (h3 : -e ≠ hi) :
    pow_integral_compute lo hi (i 1 : FV f) e = i 1 := by
  have h11 : (fin 1 false : FV f) * fin 1 false = fin 1 false := by
    have := valid_i (f := f) 1; rw [i_one] at this; exact one_mul_fv this
  have hn : ∀ n : ℕ, n ≠ hi → pow_integral_nonneg (i 1 : FV f) n hi = fin 1 false := by
    intro n hn
    unfold pow_integral_nonneg
    simp only [i_one, h11, recur_one, hn, if_false, ite_self]
  unfold pow_integral_compute
  by_cases h : e < 0
  · rw [if_pos h, if_neg h1, hn _ (by omega), i_one, fin_div one_ne_zero, div_one]
    have := mk_of_rep (f := f) (q := 1) (zs := false)
      (by have := rep_int (f := f) (n := 1) (by have := two_pow_prec f; simp; omega); simpa using this)
      (overflows_small (by norm_num))
    simpa using this
  · rw [if_neg h, hn _ (by omega), i_one]

/-- C11: changing the sign of the base changes the sign of the result for odd exponents and leaves it
bit for bit unchanged for even ones, for every value of the base (zeros, infinities, NaN included) and
every exponent other than the limits. -/
theorem C11_sign (lo : ℤ) (hi : ℕ) (x : FV f) (e : ℤ) (h1 : e ≠ lo) (h2 : e ≠ hi) (h3 : -e ≠ hi) :
    (e % 2 = 0 → pow_integral_compute lo hi (-x) e = pow_integral_compute lo hi x e) ∧
    (e % 2 = 1 → pow_integral_compute lo hi (-x) e = -pow_integral_compute lo hi x e) := by
  have key : ∀ n : ℕ, n ≠ hi → pow_integral_nonneg (-x) n hi
      = if n % 2 = 1 then -pow_integral_nonneg x n hi else pow_integral_nonneg x n hi := by
    intro n hn
    unfold pow_integral_nonneg
    by_cases a3 : n = 3
    · subst a3; rw [if_pos rfl, if_pos rfl, neg_mul_neg', mul_neg']; rfl
    by_cases a2 : n = 2
    · subst a2; simp [neg_mul_neg']
    by_cases a1 : n = 1
    · subst a1; simp
    by_cases a0 : n = 0
    · subst a0; simp
    simp only [a3, a2, a1, a0, hn, if_false]
    exact recur_neg_base _ _ _
  unfold pow_integral_compute
  by_cases h : e < 0
  · simp only [if_pos h, if_neg h1, key _ (show (-e).toNat ≠ hi by omega)]
    constructor
    · intro hp; rw [if_neg (by omega)]
    · intro hp; rw [if_pos (by omega), div_neg']
  · simp only [if_neg h, key _ (show e.toNat ≠ hi by omega)]
    constructor
    · intro hp; rw [if_neg (by omega)]
    · intro hp; rw [if_pos (by omega)]

/-- What a type `f` can hold of `2^k`, `k ≥ 0`: the value itself or infinity. -/
def satPow2 (f : Fmt) (k : ℕ) : FV f := if (k : ℤ) < f.emax then fin (2 ^ k) false else inf false

theorem satPow2_fin_mul {a b : ℕ} (hf : f.exact = false) :
    mk f ((2:ℚ) ^ a * 2 ^ b) false = satPow2 f (a + b) := by
  have hr : Rep f ((2:ℚ) ^ (a + b)) := by
    rw [← pow2_nat]; exact rep_pow2 (by have := emin_neg f; omega)
  unfold satPow2 mk
  rw [← pow_add, hr]
  have hpos : (0:ℚ) < 2 ^ (a + b) := by positivity
  have hov : overflows f ((2:ℚ) ^ (a + b)) = !decide (((a + b : ℕ) : ℤ) < f.emax) := by
    unfold overflows
    rw [hf, ← pow2_nat]
    have hl : ¬ (pow2 ((a + b : ℕ) : ℤ) ≤ -pow2 f.emax) := by
      have := pow2_pos f.emax; have := pow2_pos ((a + b : ℕ) : ℤ); linarith
    simp only [Bool.not_false, Bool.true_and, decide_eq_false hl, Bool.or_false, pow2_le_iff]
    rw [← decide_not, decide_eq_decide]; omega
  simp only [hov]
  by_cases hc : ((a + b : ℕ) : ℤ) < f.emax
  · rw [if_pos hc, decide_eq_true hc]; simp [hpos.ne']
  · rw [if_neg hc, decide_eq_false hc]; simp [not_lt.2 hpos.le]

theorem satPow2_mul {a b : ℕ} (hf : f.exact = false) :
    satPow2 f a * satPow2 f b = satPow2 f (a + b) := by
  have hpa : (0:ℚ) < 2 ^ a := by positivity
  have hpb : (0:ℚ) < 2 ^ b := by positivity
  have hinf : ∀ k : ℕ, ¬ ((k : ℤ) < f.emax) → satPow2 f k = inf false := by
    intro k hk; unfold satPow2; rw [if_neg hk]
  by_cases ha : (a : ℤ) < f.emax
  · by_cases hb : (b : ℤ) < f.emax
    · rw [← satPow2_fin_mul hf]
      unfold satPow2; rw [if_pos ha, if_pos hb, fin_mul]
      have : (sign (fin ((2:ℚ) ^ a) false : FV f) ^^ sign (fin ((2:ℚ) ^ b) false : FV f)) = false := by
        simp [sign, not_lt.2 hpa.le, not_lt.2 hpb.le]
      rw [this]
    · rw [hinf b hb, hinf (a + b) (by push_cast; omega)]
      unfold satPow2; rw [if_pos ha]; change mul _ _ = _
      simp [mul, sign, hpa.ne', not_lt.2 hpa.le]
  · rw [hinf a ha, hinf (a + b) (by push_cast; omega)]
    unfold satPow2
    by_cases hb : (b : ℤ) < f.emax
    · rw [if_pos hb]; change mul _ _ = _
      simp [mul, sign, hpb.ne', not_lt.2 hpb.le]
    · rw [if_neg hb]; rfl

theorem recur_pow2 (hf : f.exact = false) (a b n : ℕ) :
    pow_integral_compute_recur (satPow2 f a) (satPow2 f b) n = satPow2 f (a * n + b) := by
  induction n using Nat.strong_induction_on generalizing a b with
  | _ n ih =>
    rw [pow_integral_compute_recur]
    by_cases h1 : n > 1
    · rw [if_pos h1, satPow2_mul hf, satPow2_mul hf]
      have hlt : n / 2 < n := by omega
      have hd := Nat.div_add_mod n 2
      by_cases h2 : n % 2 = 1
      · rw [if_pos h2, ih _ hlt]; congr 1
        have : n = 2 * (n / 2) + 1 := by omega
        generalize n / 2 = m at *; subst this; ring
      · rw [if_neg h2, ih _ hlt]; congr 1
        have : n = 2 * (n / 2) := by omega
        generalize n / 2 = m at *; subst this; ring
    · rw [if_neg h1]
      by_cases h2 : n = 1
      · rw [if_pos h2, satPow2_mul hf]; subst h2; congr 1; ring
      · have : n = 0 := by omega
        subst this; simp

/-- C11: `pow(2, e)` is exactly `2^e` for `|e| < emax`; above it is `+inf` and below it is `+0`
(although `2^e` is still a representable subnormal for `emin ≤ e ≤ -emax`). -/
theorem C11_base_two (hf : f.exact = false) (lo : ℤ) (hi : ℕ) (e : ℤ)
    (h1 : e ≠ lo) (h2 : e ≠ hi) (h3 : -e ≠ hi) :
    pow_integral_compute lo hi (i 2 : FV f) e =
      if f.emax ≤ e then inf false
      else if e ≤ -f.emax then fin 0 false
      else fin ((2:ℚ) ^ e) false := by
  have hem := emax_large f
  have s0 : satPow2 f 0 = fin 1 false := by unfold satPow2; rw [if_pos (by push_cast; omega)]; simp
  have s1 : satPow2 f 1 = fin 2 false := by unfold satPow2; rw [if_pos (by push_cast; omega)]; simp
  have hn : ∀ n : ℕ, n ≠ hi → pow_integral_nonneg (i 2 : FV f) n hi = satPow2 f n := by
    intro n hn
    unfold pow_integral_nonneg
    rw [i_two, i_one, ← s0, ← s1]
    simp only [satPow2_mul hf, recur_pow2 hf, hn, if_false]
    split_ifs <;> simp_all
  unfold pow_integral_compute
  by_cases h : e < 0
  · rw [if_pos h, if_neg h1, hn _ (by omega), if_neg (show ¬ f.emax ≤ e by omega), i_one]
    unfold satPow2
    by_cases hl : e ≤ -f.emax
    · rw [if_pos hl, if_neg (by omega)]; change div _ _ = _; simp [div, sign]
    · rw [if_neg hl, if_pos (by omega), fin_div (by positivity)]
      have he : (1:ℚ) / 2 ^ (-e).toNat = 2 ^ e := by
        rw [one_div, ← zpow_natCast, ← zpow_neg, Int.toNat_of_nonneg (by omega), neg_neg]
      rw [he, mk_of_rep (by rw [← pow2_eq]; exact rep_pow2 (by rcases f with ⟨⟨⟩, ⟨⟩⟩ <;> simp [Fmt.emin, Fmt.emax, FTy.emin, FTy.emax] at * <;> omega))]
      · have : (2:ℚ) ^ e ≠ 0 := by positivity
        simp [this]
      · apply overflows_small
        rw [← pow2_eq, abs_of_pos (pow2_pos _)]
        have := pow2_le (show e ≤ 0 by omega)
        rw [pow2_zero] at this; linarith
  · rw [if_neg h, hn _ (by omega)]
    unfold satPow2
    by_cases hl : f.emax ≤ e
    · rw [if_pos hl, if_neg (by omega)]
    · rw [if_neg hl, if_pos (by omega), if_neg (by omega)]
      congr 1
      rw [← zpow_natCast, Int.toNat_of_nonneg (by omega)]

/-- C11: at the limits of the exponent type the result does not depend on the base at all:
`+inf` at the maximum, `0` at the minimum and at minus the maximum, even for base 1. -/
theorem C11_limits (hi : ℕ) (hhi : 4 ≤ hi) (x : FV f) :
    pow_integral_compute (-hi - 1) hi x hi = limInf ∧
    pow_integral_compute (-hi - 1) hi x (-hi) = fin 0 false ∧
    pow_integral_compute (-hi - 1) hi x (-hi - 1) = fin 0 false := by
  unfold pow_integral_compute pow_integral_nonneg
  refine ⟨?_, ?_, ?_⟩
  · rw [if_neg (by omega)]
    simp only [Int.toNat_natCast, show hi ≠ 3 by omega, show hi ≠ 2 by omega, show hi ≠ 1 by omega,
      show hi ≠ 0 by omega, if_false, if_true]
  · rw [if_pos (by omega), if_neg (by omega)]
    simp only [neg_neg, Int.toNat_natCast, show hi ≠ 3 by omega, show hi ≠ 2 by omega,
      show hi ≠ 1 by omega, show hi ≠ 0 by omega, if_false, if_true]
    rw [i_one]; change div _ _ = _; simp [div, sign, limInf]
  · rw [if_pos (by omega), if_pos rfl, i_zero]

/-- instances for `double` and exponent type `int` -/
example : pow_integral_int (i 1 : FV binary64) (-77) = i 1 :=
  C11_base_one _ _ _ (by decide) (by decide) (by decide)
example (x : FV binary64) : pow_integral_int (-x) 7 = -pow_integral_int x 7 :=
  (C11_sign _ _ x 7 (by decide) (by decide) (by decide)).2 (by decide)
example : pow_integral_int (i 2 : FV binary64) 1023 = fin (2 ^ (1023 : ℤ)) false := by
  have := C11_base_two (f := binary64) rfl (-2 ^ 31) (2 ^ 31 - 1) 1023 (by decide) (by decide) (by decide)
  rw [if_neg (by decide), if_neg (by decide)] at this
  exact this
example : pow_integral_int (i 1 : FV binary64) (2 ^ 31 - 1) = limInf := by
  have := (C11_limits (f := binary64) (2 ^ 31 - 1) (by decide) (i 1)).1
  exact this

/-! ## C12 -/

/-- `r` is `x^k` (`k ≥ 1`) up to `k - 1` roundings of relative size at most `u`; `k = 0` means exactly 1. -/
def PowApprox (u x : ℚ) (k : ℕ) (r : ℚ) : Prop :=
  ∃ θ : ℚ, r = x ^ k * θ ∧ (1 - u) ^ (k - 1) ≤ θ ∧ θ ≤ (1 + u) ^ (k - 1)

theorem uro_lt (f : Fmt) : uro f ≤ 1 / 16777216 := by
  unfold uro
  have : pow2 (-(f.prec:ℤ)) ≤ pow2 (-24) := pow2_le (by rcases f with ⟨⟨⟩, ⟨⟩⟩ <;> decide)
  have h : pow2 (-24) = 1 / 16777216 := by norm_num [pow2_eq]
  linarith

theorem PowApprox.one (u x : ℚ) : PowApprox u x 1 x := ⟨1, by simp, by simp, by simp⟩
theorem PowApprox.zero (u x : ℚ) : PowApprox u x 0 1 := ⟨1, by simp, by simp, by simp⟩

/-- Condition under which no product of the recursion can underflow. -/
def NoUnder (f : Fmt) (x : ℚ) (n : ℕ) : Prop :=
  1 ≤ |x| ∨ minNormal f ≤ (1 - uro f) ^ n * |x| ^ n

theorem rep_gt_one {x : ℚ} (hf : f.exact = false) (hr : Rep f x) (h : 1 < |x|) :
    1 + 2 * uro f ≤ |x| := by
  have hx : x ≠ 0 := by rintro rfl; norm_num at h
  obtain ⟨m, hm, -⟩ := rep_scaled hf hx hr
  have hfe : fexp f 1 ≤ fexp f x := fexp_mono one_ne_zero (by simpa using h.le)
  have h1 : fexp f 1 = 1 - f.prec := by
    unfold fexp
    have : ilog2 1 = 0 := by have := ilog2_pow2 0; rwa [pow2_zero] at this
    rw [this]; rcases f with ⟨⟨⟩, ⟨⟩⟩ <;> decide
  obtain ⟨k, hk, hk2⟩ := pow2_mult hfe
  have hu : 2 * uro f = pow2 (fexp f 1) := by
    rw [h1]; unfold uro; rw [← pow2_succ]; congr 1; ring
  have hP := pow2_pos (fexp f 1)
  have hone : (1:ℚ) = ((2 ^ (f.prec - 1) : ℤ) : ℚ) * pow2 (fexp f 1) := by
    rw [h1]; push_cast; rw [← pow2_nat, ← pow2_add, ← pow2_zero]; congr 1
    have := prec_pos f; omega
  have habs : |x| = ((|m| * k : ℤ) : ℚ) * pow2 (fexp f 1) := by
    rw [hm, hk2, abs_mul, abs_mul, abs_of_pos hP, abs_of_pos (show (0:ℚ) < k by exact_mod_cast hk)]
    push_cast; ring
  rw [habs] at h ⊢
  have h2 : ((2 ^ (f.prec - 1) : ℤ) : ℚ) < ((|m| * k : ℤ) : ℚ) := by
    refine lt_of_mul_lt_mul_right ?_ hP.le
    rw [← hone]; exact h
  have h3 : (2 ^ (f.prec - 1) : ℤ) + 1 ≤ |m| * k := by
    have : (2 ^ (f.prec - 1) : ℤ) < |m| * k := by exact_mod_cast h2
    omega
  have h4 : ((2 ^ (f.prec - 1) : ℤ) : ℚ) + 1 ≤ ((|m| * k : ℤ) : ℚ) := by exact_mod_cast h3
  rw [hu]
  calc 1 + pow2 (fexp f 1) = (((2 ^ (f.prec - 1) : ℤ) : ℚ) + 1) * pow2 (fexp f 1) := by
        rw [add_mul, ← hone, one_mul]
    _ ≤ _ := mul_le_mul_of_nonneg_right h4 hP.le

theorem pow_normal {x : ℚ} {n k : ℕ} (hf : f.exact = false) (hr : Rep f x) (h : NoUnder f x n)
    (hx : x ≠ 0) (hx1 : |x| ≠ 1) (hk : 1 ≤ k) (hkn : k ≤ n) :
    minNormal f ≤ (1 - uro f) ^ (k - 1) * |x| ^ k := by
  have hu := uro_pos f
  have hu1 := uro_lt f
  have h0 : 0 < 1 - uro f := by linarith
  have h1 : 1 - uro f ≤ 1 := by linarith
  have hxp : 0 < |x| := abs_pos.2 hx
  rcases lt_or_gt_of_ne hx1 with hlt | hgt
  · rcases h with h | h
    · exact absurd h (not_le.2 hlt)
    · refine h.trans (mul_le_mul ?_ ?_ (by positivity) (by positivity))
      · exact pow_le_pow_of_le_one h0.le h1 (by omega)
      · exact pow_le_pow_of_le_one hxp.le hlt.le hkn
  · have hmn := minNormal_lt_one f
    have hg := rep_gt_one hf hr hgt
    have h3 : 1 ≤ (1 - uro f) * |x| := by nlinarith
    obtain ⟨j, rfl⟩ : ∃ j, k = j + 1 := ⟨k - 1, by omega⟩
    have h4 : (1:ℚ) ≤ ((1 - uro f) * |x|) ^ j := one_le_pow₀ h3
    have h5 : (1 - uro f) ^ (j + 1 - 1) * |x| ^ (j + 1) = ((1 - uro f) * |x|) ^ j * |x| := by
      rw [Nat.add_sub_cancel, mul_pow]; ring
    rw [h5]; nlinarith

theorem rep_one : Rep f 1 := by
  simpa using rep_int (f := f) (n := 1) (by have := two_pow_prec f; simp; omega)

theorem approx_step {x r1 r2 : ℚ} {n a b : ℕ} (hf : f.exact = false) (hr : Rep f x) (hx : x ≠ 0)
    (hx1 : |x| ≠ 1) (h : NoUnder f x n) (h1 : PowApprox (uro f) x a r1) (h2 : PowApprox (uro f) x b r2)
    (ha : 1 ≤ a) (hb : 1 ≤ b) (hn : a + b ≤ n) :
    rnd f (r1 * r2) ≠ 0 ∧ PowApprox (uro f) x (a + b) (rnd f (r1 * r2)) := by
  have hu := uro_pos f
  have hu1 := uro_lt f
  have h0 : 0 < 1 - uro f := by linarith
  obtain ⟨θ1, e1, l1, u1⟩ := h1
  obtain ⟨θ2, e2, l2, u2⟩ := h2
  have hθ1 : 0 < θ1 := lt_of_lt_of_le (by positivity) l1
  have hθ2 : 0 < θ2 := lt_of_lt_of_le (by positivity) l2
  have hp : r1 * r2 = x ^ (a + b) * (θ1 * θ2) := by rw [e1, e2, pow_add]; ring
  have hxk : x ^ (a + b) ≠ 0 := pow_ne_zero _ hx
  have hp0 : r1 * r2 ≠ 0 := by rw [hp]; positivity
  have hl : (1 - uro f) ^ (a - 1 + (b - 1)) ≤ θ1 * θ2 := by
    rw [pow_add]; exact mul_le_mul l1 l2 (by positivity) hθ1.le
  have hu2 : θ1 * θ2 ≤ (1 + uro f) ^ (a - 1 + (b - 1)) := by
    rw [pow_add]; exact mul_le_mul u1 u2 hθ2.le (by positivity)
  have hexp : a + b - 1 = (a - 1 + (b - 1)) + 1 := by omega
  have hnorm : minNormal f ≤ |r1 * r2| := by
    refine (pow_normal hf hr h hx hx1 (k := a + b) (by omega) hn).trans ?_
    rw [hp, abs_mul, abs_pow, abs_of_pos (show 0 < θ1 * θ2 by positivity), mul_comm]
    refine mul_le_mul_of_nonneg_left (le_trans ?_ hl) (by positivity)
    exact pow_le_pow_of_le_one h0.le (by linarith) (by omega)
  have herr := rnd_err_rel hnorm
  have hpa : 0 < |r1 * r2| := abs_pos.2 hp0
  set δ := rnd f (r1 * r2) / (r1 * r2) - 1 with hδ
  have hδe : rnd f (r1 * r2) = r1 * r2 * (1 + δ) := by
    rw [hδ, add_sub_cancel, mul_div_cancel₀ _ hp0]
  have hδa : |δ| ≤ uro f := by
    have : rnd f (r1 * r2) - r1 * r2 = (r1 * r2) * δ := by rw [hδe]; ring
    rw [this, abs_mul, mul_comm] at herr
    exact le_of_mul_le_mul_right herr hpa
  obtain ⟨d1, d2⟩ := abs_le.1 hδa
  have hd : 0 < 1 + δ := by linarith
  refine ⟨by rw [hδe]; exact mul_ne_zero hp0 hd.ne', θ1 * θ2 * (1 + δ), by rw [hδe, hp]; ring, ?_, ?_⟩
  · rw [hexp, pow_succ]
    exact mul_le_mul hl (by linarith) h0.le (by positivity)
  · rw [hexp, pow_succ]
    exact mul_le_mul hu2 (by linarith) hd.le (by positivity)

/-- An approximation of `x^k` that is a value of the type (or an infinity). -/
def Good (f : Fmt) (x : ℚ) (k : ℕ) (v : FV f) : Prop :=
  (∃ s, v = inf s) ∨ ∃ r w, v = fin r w ∧ Rep f r ∧ overflows f r = false ∧ r ≠ 0 ∧
    PowApprox (uro f) x k r ∧ (|x| = 1 → r = x ^ k)

theorem Good.mul {x : ℚ} {n a b : ℕ} {v w : FV f} (hf : f.exact = false) (hr : Rep f x) (hx : x ≠ 0)
    (h : NoUnder f x n) (hv : Good f x a v) (hw : Good f x b w) (ha : 1 ≤ b) (hn : a + b ≤ n) :
    Good f x (a + b) (v * w) := by
  have hu := uro_pos f
  have hu1 := uro_lt f
  rcases hv with ⟨s, rfl⟩ | ⟨r1, w1, rfl, hr1, ho1, hz1, ⟨θ1, e1, l1, u1⟩, x1⟩
  · left
    rcases hw with ⟨t, rfl⟩ | ⟨r, w', rfl, -, -, hz, -, -⟩
    · exact ⟨s ^^ t, rfl⟩
    · exact ⟨s ^^ sign (fin r w' : FV f), by change FV.mul _ _ = _; simp only [FV.mul, hz, if_false]⟩
  rcases hw with ⟨t, rfl⟩ | ⟨r2, w2, rfl, hr2, ho2, hz2, ⟨θ2, e2, l2, u2⟩, x2⟩
  · left; exact ⟨sign (fin r1 w1 : FV f) ^^ t, by change FV.mul _ _ = _; simp only [FV.mul, hz1, if_false]⟩
  rw [fin_mul]
  have hp0 : r1 * r2 ≠ 0 := mul_ne_zero hz1 hz2
  by_cases ho : overflows f (rnd f (r1 * r2)) = true
  · left; exact ⟨decide (r1 * r2 < 0), by unfold mk; simp only [ho, if_true]⟩
  right
  have ho' : overflows f (rnd f (r1 * r2)) = false := by simpa using ho
  refine ⟨rnd f (r1 * r2), _, mk_fin ho', rep_rnd _ _, ho', ?_⟩
  rcases Nat.eq_zero_or_pos a with ha0 | ha0
  · subst ha0
    have : θ1 = 1 := le_antisymm (by simpa using u1) (by simpa using l1)
    have hr11 : r1 = 1 := by rw [e1, this]; simp
    rw [hr11, one_mul, hr2, zero_add]; exact ⟨hz2, ⟨θ2, e2, l2, u2⟩, x2⟩
  by_cases hx' : |x| = 1
  · have he : rnd f (r1 * r2) = x ^ (a + b) := by
      rw [x1 hx', x2 hx', ← pow_add]
      have hc : |x ^ (a + b)| = 1 := by rw [abs_pow, hx', one_pow]
      rcases abs_eq_abs.1 (hc.trans abs_one.symm) with h' | h'
      · rw [h']; exact rep_one
      · rw [h']; exact rep_one.neg
    rw [he]
    refine ⟨pow_ne_zero _ hx, ⟨1, by ring, ?_, ?_⟩, fun _ => rfl⟩
    · exact pow_le_one₀ (by linarith) (by linarith)
    · exact one_le_pow₀ (by linarith)
  · have := approx_step hf hr hx hx' h ⟨θ1, e1, l1, u1⟩ ⟨θ2, e2, l2, u2⟩ ha0 ha hn
    exact ⟨this.1, this.2, fun h => absurd h hx'⟩

theorem recur_good {x : ℚ} {N : ℕ} (hf : f.exact = false) (hr : Rep f x) (hx : x ≠ 0)
    (h : NoUnder f x N) (a b n : ℕ) (base val : FV f) (hb : Good f x a base) (hv : Good f x b val)
    (ha : 1 ≤ a) (hN : a * n + b ≤ N) :
    Good f x (a * n + b) (pow_integral_compute_recur base val n) := by
  induction n using Nat.strong_induction_on generalizing a b base val with
  | _ n ih =>
    rw [pow_integral_compute_recur]
    by_cases h1 : n > 1
    · rw [if_pos h1]
      have hlt : n / 2 < n := by omega
      have h2a : a + a ≤ N := by nlinarith
      have hsq := hb.mul hf hr hx h hb ha h2a
      by_cases h2 : n % 2 = 1
      · rw [if_pos h2]
        have hn : n = 2 * (n / 2) + 1 := by omega
        have he : a * n + b = (a + a) * (n / 2) + (b + a) := by
          generalize n / 2 = m at *; subst hn; ring
        rw [he] at hN ⊢
        exact ih _ hlt _ _ _ _ hsq (hv.mul hf hr hx h hb ha (by
          have := Nat.zero_le ((a + a) * (n / 2)); omega)) (by omega) hN
      · rw [if_neg h2]
        have hn : n = 2 * (n / 2) := by omega
        have he : a * n + b = (a + a) * (n / 2) + b := by
          generalize n / 2 = m at *; subst hn; ring
        rw [he] at hN ⊢
        exact ih _ hlt _ _ _ _ hsq hv (by omega) hN
    · rw [if_neg h1]
      by_cases h2 : n = 1
      · rw [if_pos h2]; subst h2
        have := hv.mul hf hr hx h hb ha (by omega)
        rwa [mul_one, add_comm]
      · have : n = 0 := by omega
        subst this; simpa using hv

theorem nonneg_good {q : ℚ} {z : Bool} {n hi : ℕ} (hf : f.exact = false) (hx : Valid (fin q z : FV f))
    (hq : q ≠ 0) (h : NoUnder f q n) (hn : n ≠ hi) :
    Good f q n (pow_integral_nonneg (fin q z : FV f) n hi) := by
  have hb : Good f q 1 (fin q z : FV f) :=
    Or.inr ⟨q, z, rfl, hx.rep, hx.novf, hq, PowApprox.one _ _, fun _ => by simp⟩
  have h1 : Good f q 0 (fin 1 false : FV f) :=
    Or.inr ⟨1, false, rfl, rep_one, overflows_small (by norm_num), one_ne_zero, PowApprox.zero _ _,
      fun _ => by simp⟩
  unfold pow_integral_nonneg
  by_cases a3 : n = 3
  · rw [if_pos a3]; subst a3
    exact (hb.mul hf hx.rep hq h hb le_rfl (by norm_num)).mul hf hx.rep hq h hb le_rfl (by norm_num)
  rw [if_neg a3]
  by_cases a2 : n = 2
  · rw [if_pos a2]; subst a2
    exact hb.mul hf hx.rep hq h hb le_rfl (by norm_num)
  rw [if_neg a2]
  by_cases a1 : n = 1
  · rw [if_pos a1]; subst a1; exact hb
  rw [if_neg a1]
  by_cases a0 : n = 0
  · rw [if_pos a0]; subst a0; rw [i_one]; exact h1
  rw [if_neg a0, if_neg hn, i_one]
  have := recur_good hf hx.rep hq h 1 0 n _ _ hb h1 le_rfl (by omega)
  simpa using this

/-- C12: for every finite nonzero base and every exponent `n ≥ 0` (not the maximum of its type):
if `|x| ≥ 1`, or `|x|^n` stays clear of the subnormal range, the result is an infinity or has
relative error at most `(1 ± u)^(n-1)`; it is never NaN, zero or of the wrong sign. -/
theorem C12_error_bound (hf : f.exact = false) (lo : ℤ) (hi : ℕ) (q : ℚ) (z : Bool)
    (hx : Valid (fin q z : FV f)) (hq : q ≠ 0) (n : ℕ) (hn : n ≠ hi)
    (h : 1 ≤ |q| ∨ minNormal f ≤ (1 - uro f) ^ n * |q| ^ n) :
    (∃ s, pow_integral_compute lo hi (fin q z : FV f) n = inf s) ∨
    ∃ r w, pow_integral_compute lo hi (fin q z : FV f) n = fin r w ∧
      ∃ θ, r = q ^ n * θ ∧ (1 - uro f) ^ (n - 1) ≤ θ ∧ θ ≤ (1 + uro f) ^ (n - 1) := by
  have hg := nonneg_good (hi := hi) hf hx hq h hn
  have he : pow_integral_compute lo hi (fin q z : FV f) n = pow_integral_nonneg (fin q z : FV f) n hi := by
    unfold pow_integral_compute; rw [if_neg (by omega)]; simp
  rw [he]
  rcases hg with h | ⟨r, w, h1, -, -, -, h2, -⟩
  · exact Or.inl h
  · exact Or.inr ⟨r, w, h1, h2⟩

/-- C12 for negative exponents: one more rounding (the reciprocal), provided `x^n` is finite and its
reciprocal normal. -/
theorem C12_error_bound_neg_exponent (hf : f.exact = false) (lo : ℤ) (hi : ℕ) (q : ℚ) (z : Bool)
    (hx : Valid (fin q z : FV f)) (hq : q ≠ 0) (n : ℕ) (hn0 : 0 < n) (hn : n ≠ hi) (hlo : (-n : ℤ) ≠ lo)
    (h : 1 ≤ |q| ∨ minNormal f ≤ (1 - uro f) ^ n * |q| ^ n)
    (r : ℚ) (w : Bool) (hr : pow_integral_compute lo hi (fin q z : FV f) n = fin r w)
    (hnorm : minNormal f ≤ |1 / r|) :
    (∃ s, pow_integral_compute lo hi (fin q z : FV f) (-n) = inf s) ∨
    ∃ r' w', pow_integral_compute lo hi (fin q z : FV f) (-n) = fin r' w' ∧
      ∃ θ, r' * (q ^ n * θ) = 1 ∧ (1 - uro f) ^ n ≤ θ ∧ θ * (1 - uro f) ≤ (1 + uro f) ^ (n - 1) := by
  have hu := uro_pos f
  have hu1 := uro_lt f
  have h0 : 0 < 1 - uro f := by linarith
  rcases C12_error_bound hf lo hi q z hx hq n hn h with ⟨s, hs⟩ | ⟨r1, w1, h1, θ, e1, l1, u1⟩
  · rw [hr] at hs; simp at hs
  rw [hr] at h1
  obtain ⟨rfl, rfl⟩ : r = r1 ∧ w = w1 := by simpa using h1
  have hθ : 0 < θ := lt_of_lt_of_le (by positivity) l1
  have hr0 : r ≠ 0 := by rw [e1]; positivity
  have he : pow_integral_compute lo hi (fin q z : FV f) n = pow_integral_nonneg (fin q z : FV f) n hi := by
    unfold pow_integral_compute; rw [if_neg (by omega)]; simp
  have he2 : pow_integral_compute lo hi (fin q z : FV f) (-n) = fin 1 false / fin r w := by
    rw [← hr, he]
    unfold pow_integral_compute; rw [if_pos (by omega), if_neg hlo]; simp
  rw [he2, fin_div hr0]
  by_cases ho : overflows f (rnd f (1 / r)) = true
  · left; exact ⟨decide (1 / r < 0), by unfold mk; simp only [ho, if_true]⟩
  right
  have ho' : overflows f (rnd f (1 / r)) = false := by simpa using ho
  refine ⟨rnd f (1 / r), _, mk_fin ho', ?_⟩
  have herr := rnd_err_rel hnorm
  set δ := rnd f (1 / r) * r - 1 with hδ
  have hδe : rnd f (1 / r) = 1 / r * (1 + δ) := by rw [hδ]; field_simp; ring
  have hδa : |δ| ≤ uro f := by
    have : rnd f (1 / r) - 1 / r = (1 / r) * δ := by rw [hδe]; ring
    rw [this, abs_mul, mul_comm] at herr
    exact le_of_mul_le_mul_right herr (abs_pos.2 (by positivity))
  obtain ⟨d1, d2⟩ := abs_le.1 hδa
  have hd : 0 < 1 + δ := by linarith
  refine ⟨θ / (1 + δ), ?_, ?_, ?_⟩
  · rw [hδe, e1]; field_simp
  · rw [le_div_iff₀ hd]
    have hs : (1 - uro f) ^ n = (1 - uro f) ^ (n - 1) * (1 - uro f) := by
      rw [← pow_succ]; congr 1; omega
    rw [hs, mul_assoc]
    refine le_trans (mul_le_of_le_one_right (by positivity) ?_) l1
    nlinarith
  · rw [div_mul_eq_mul_div, div_le_iff₀ hd]
    have : (0:ℚ) < (1 + uro f) ^ (n - 1) := by positivity
    nlinarith

/-- An infinity means that the (slightly enlarged) power exceeds the range. -/
def InfOnly (f : Fmt) (x : ℚ) (k : ℕ) (v : FV f) : Prop :=
  ∀ s, v = inf s → pow2 f.emax ≤ |x| ^ k * (1 + uro f) ^ k

theorem infOnly_mono {x : ℚ} {a b : ℕ} (hx : 1 ≤ |x|) (h : a ≤ b) :
    |x| ^ a * (1 + uro f) ^ a ≤ |x| ^ b * (1 + uro f) ^ b := by
  have hu := uro_pos f
  exact mul_le_mul (pow_le_pow_right₀ hx h) (pow_le_pow_right₀ (by linarith) h) (by positivity) (by positivity)

theorem infOnly_fin {x r : ℚ} {w : Bool} {k : ℕ} : InfOnly f x k (fin r w) := by intro s h; simp at h

theorem Good.mul_inf {x : ℚ} {a b : ℕ} {v w : FV f} (hx : 1 ≤ |x|)
    (hv : Good f x a v) (hw : Good f x b w) (iv : InfOnly f x a v) (iw : InfOnly f x b w) (hb : 1 ≤ b) :
    InfOnly f x (a + b) (v * w) := by
  have hu := uro_pos f
  have hu1 := uro_lt f
  intro s hs
  rcases hv with ⟨t, rfl⟩ | ⟨r1, w1, rfl, hr1, ho1, hz1, ⟨θ1, e1, l1, u1⟩, -⟩
  · exact (iv t rfl).trans (infOnly_mono hx (by omega))
  rcases hw with ⟨t, rfl⟩ | ⟨r2, w2, rfl, hr2, ho2, hz2, ⟨θ2, e2, l2, u2⟩, -⟩
  · exact (iw t rfl).trans (infOnly_mono hx (by omega))
  have h0 : 0 < 1 - uro f := by linarith
  have hθ1 : 0 < θ1 := lt_of_lt_of_le (by positivity) l1
  have hθ2 : 0 < θ2 := lt_of_lt_of_le (by positivity) l2
  rw [fin_mul] at hs
  have ho : overflows f (rnd f (r1 * r2)) = true := by
    by_contra hc
    rw [mk_fin (by simpa using hc)] at hs
    simp at hs
  have hbig : pow2 f.emax ≤ |rnd f (r1 * r2)| := by
    by_contra hc
    have := overflows_false_iff (f := f) (r := rnd f (r1 * r2))
    rw [this.2 (Or.inr (not_le.1 hc))] at ho
    exact absurd ho (by simp)
  have he1 : (1:ℚ) < pow2 f.emax := by
    rw [← pow2_zero]; exact pow2_lt (by have := emax_large f; omega)
  have hnorm : minNormal f ≤ |r1 * r2| := by
    by_contra hc
    have hm := minNormal_lt_one f
    have : |rnd f (r1 * r2)| ≤ 1 := abs_rnd_le_of_rep rep_one (by linarith)
    linarith
  have herr := rnd_err_rel hnorm
  have h3 : |rnd f (r1 * r2)| ≤ (1 + uro f) * |r1 * r2| := by
    have : rnd f (r1 * r2) = r1 * r2 + (rnd f (r1 * r2) - r1 * r2) := by ring
    rw [this]; refine (abs_add_le _ _).trans ?_; linarith
  refine (hbig.trans h3).trans ?_
  have hxp : 0 < |x| := by linarith
  rw [e1, e2, abs_mul, abs_mul, abs_mul, abs_pow, abs_pow, abs_of_pos hθ1, abs_of_pos hθ2]
  calc (1 + uro f) * (|x| ^ a * θ1 * (|x| ^ b * θ2)) = |x| ^ (a + b) * ((1 + uro f) * (θ1 * θ2)) := by
        rw [pow_add]; ring
    _ ≤ |x| ^ (a + b) * (1 + uro f) ^ (a + b) := by
        refine mul_le_mul_of_nonneg_left ?_ (by positivity)
        have h4 : θ1 * θ2 ≤ (1 + uro f) ^ (a - 1) * (1 + uro f) ^ (b - 1) :=
          mul_le_mul u1 u2 hθ2.le (by positivity)
        calc (1 + uro f) * (θ1 * θ2) ≤ (1 + uro f) * ((1 + uro f) ^ (a - 1) * (1 + uro f) ^ (b - 1)) :=
              mul_le_mul_of_nonneg_left h4 (by positivity)
          _ = (1 + uro f) ^ (1 + (a - 1 + (b - 1))) := by rw [pow_add, pow_add, pow_one]
          _ ≤ _ := pow_le_pow_right₀ (by linarith) (by omega)

theorem recur_inf {x : ℚ} {N : ℕ} (hf : f.exact = false) (hr : Rep f x) (hx1 : 1 ≤ |x|)
    (a b n : ℕ) (base val : FV f) (hb : Good f x a base) (hv : Good f x b val)
    (ib : InfOnly f x a base) (iv : InfOnly f x b val) (ha : 1 ≤ a) (hN : a * n + b ≤ N) :
    InfOnly f x (a * n + b) (pow_integral_compute_recur base val n) := by
  have hx : x ≠ 0 := by rintro rfl; norm_num at hx1
  have h : NoUnder f x N := Or.inl hx1
  induction n using Nat.strong_induction_on generalizing a b base val with
  | _ n ih =>
    rw [pow_integral_compute_recur]
    by_cases h1 : n > 1
    · rw [if_pos h1]
      have hlt : n / 2 < n := by omega
      have h2a : a + a ≤ N := by nlinarith
      have hsq := hb.mul hf hr hx h hb ha h2a
      have isq := Good.mul_inf hx1 hb hb ib ib ha
      by_cases h2 : n % 2 = 1
      · rw [if_pos h2]
        have hn : n = 2 * (n / 2) + 1 := by omega
        have he : a * n + b = (a + a) * (n / 2) + (b + a) := by
          generalize n / 2 = m at *; subst hn; ring
        rw [he] at hN ⊢
        exact ih _ hlt _ _ _ _ hsq (hv.mul hf hr hx h hb ha (by
          have := Nat.zero_le ((a + a) * (n / 2)); omega)) isq (Good.mul_inf hx1 hv hb iv ib ha) (by omega) hN
      · rw [if_neg h2]
        have hn : n = 2 * (n / 2) := by omega
        have he : a * n + b = (a + a) * (n / 2) + b := by
          generalize n / 2 = m at *; subst hn; ring
        rw [he] at hN ⊢
        exact ih _ hlt _ _ _ _ hsq hv isq iv (by omega) hN
    · rw [if_neg h1]
      by_cases h2 : n = 1
      · rw [if_pos h2]; subst h2
        have := Good.mul_inf hx1 hv hb iv ib ha
        rwa [mul_one, add_comm]
      · have : n = 0 := by omega
        subst this; simpa using iv

/-- C12: for a base of magnitude at least one the power is finite unless `(|x| (1 + u))^n` leaves the
range of the type; when finite it has relative error at most `(1 ± u)^(n-1)`. -/
theorem C12_finite (hf : f.exact = false) (lo : ℤ) (hi : ℕ) (q : ℚ) (z : Bool)
    (hx : Valid (fin q z : FV f)) (hq : 1 ≤ |q|) (n : ℕ) (hn : n ≠ hi)
    (h : |q| ^ n * (1 + uro f) ^ n < pow2 f.emax) :
    ∃ r w, pow_integral_compute lo hi (fin q z : FV f) n = fin r w ∧
      ∃ θ, r = q ^ n * θ ∧ (1 - uro f) ^ (n - 1) ≤ θ ∧ θ ≤ (1 + uro f) ^ (n - 1) := by
  have hq0 : q ≠ 0 := by rintro rfl; norm_num at hq
  rcases C12_error_bound hf lo hi q z hx hq0 n hn (Or.inl hq) with ⟨s, hs⟩ | h'
  · exfalso
    have he : pow_integral_compute lo hi (fin q z : FV f) n = pow_integral_nonneg (fin q z : FV f) n hi := by
      unfold pow_integral_compute; rw [if_neg (by omega)]; simp
    rw [he] at hs
    have hb : Good f q 1 (fin q z : FV f) :=
      Or.inr ⟨q, z, rfl, hx.rep, hx.novf, hq0, PowApprox.one _ _, fun _ => by simp⟩
    have h1 : Good f q 0 (fin 1 false : FV f) :=
      Or.inr ⟨1, false, rfl, rep_one, overflows_small (by norm_num), one_ne_zero, PowApprox.zero _ _,
        fun _ => by simp⟩
    have hinf : InfOnly f q n (pow_integral_nonneg (fin q z : FV f) n hi) := by
      unfold pow_integral_nonneg
      have NU : ∀ k, NoUnder f q k := fun k => Or.inl hq
      by_cases a3 : n = 3
      · rw [if_pos a3]; subst a3
        have i2 := Good.mul_inf hq hb hb infOnly_fin infOnly_fin le_rfl
        have g2 := hb.mul (n := 3) hf hx.rep hq0 (NU 3) hb le_rfl (by norm_num)
        have i3 := Good.mul_inf hq g2 hb i2 infOnly_fin le_rfl
        exact i3
      rw [if_neg a3]
      by_cases a2 : n = 2
      · rw [if_pos a2]; subst a2
        have i2 := Good.mul_inf hq hb hb infOnly_fin infOnly_fin le_rfl
        exact i2
      rw [if_neg a2]
      by_cases a1 : n = 1
      · rw [if_pos a1]; exact infOnly_fin
      rw [if_neg a1]
      by_cases a0 : n = 0
      · rw [if_pos a0, i_one]; exact infOnly_fin
      rw [if_neg a0, if_neg hn, i_one]
      have := recur_inf (N := n) hf hx.rep hq 1 0 n _ _ hb h1 infOnly_fin infOnly_fin le_rfl (by omega)
      simpa using this
    exact absurd (hinf s hs) (not_le.2 h)
  · exact h'

/-- C12: exactness on integers, `|m|^n ≤ 2^p`. -/
theorem C12_exact_integers (lo : ℤ) (hi : ℕ) (m : ℤ) (n : ℕ) (hn : n ≠ hi)
    (h : |m| ^ n ≤ 2 ^ f.prec) (hm : |m| ≤ 2 ^ f.prec) :
    ∃ w, pow_integral_compute lo hi (i m : FV f) n = fin ((m ^ n : ℤ) : ℚ) w := by
  have hmul : ∀ (a b : ℤ) (za zb : Bool), |a * b| ≤ 2 ^ f.prec →
      ∃ w, (fin (a:ℚ) za : FV f) * fin (b:ℚ) zb = fin ((a * b : ℤ) : ℚ) w := by
    intro a b za zb hab
    have e : (a:ℚ) * b = ((a * b : ℤ) : ℚ) := by push_cast; ring
    rw [fin_mul_rep (by rw [e]; exact rep_int hab) (by rw [e]; exact overflows_int hab), e]
    exact ⟨_, rfl⟩
  have hrec : ∀ (n : ℕ) (a b : ℤ) (za zb : Bool), |b| * |a| ^ n ≤ 2 ^ f.prec → |b| ≤ 2 ^ f.prec →
      (a = 0 ∨ b ≠ 0) →
      ∃ w, pow_integral_compute_recur (fin (a:ℚ) za : FV f) (fin (b:ℚ) zb) n
        = fin ((b * a ^ n : ℤ) : ℚ) w := by
    intro n
    induction n using Nat.strong_induction_on with
    | _ n ih =>
      intro a b za zb hab hb hnz
      rw [pow_integral_compute_recur]
      by_cases h1 : n > 1
      · rw [if_pos h1]
        have hP : (0:ℤ) < 2 ^ f.prec := by positivity
        have hsq : |a * a| ≤ 2 ^ f.prec ∧ |b * a| ≤ 2 ^ f.prec := by
          rcases eq_or_ne a 0 with rfl | ha
          · simp
          · have ha1 : 1 ≤ |a| := Int.one_le_abs ha
            have hb1 : 1 ≤ |b| := Int.one_le_abs (hnz.resolve_left ha)
            have h2 : |a| ^ 2 ≤ |a| ^ n := pow_le_pow_right₀ ha1 h1
            have h3 : |a| ^ 1 ≤ |a| ^ n := pow_le_pow_right₀ ha1 h1.le
            rw [abs_mul, abs_mul]
            constructor <;> nlinarith
        obtain ⟨w1, e1⟩ := hmul a a za za hsq.1
        obtain ⟨w2, e2⟩ := hmul b a zb za hsq.2
        have hlt : n / 2 < n := by omega
        by_cases h2 : n % 2 = 1
        · rw [if_pos h2, e1, e2]
          have hn : n = 2 * (n / 2) + 1 := by omega
          have hp : b * a * (a * a) ^ (n / 2) = b * a ^ n := by
            conv_rhs => rw [hn]
            ring
          have := ih (n / 2) hlt (a * a) (b * a) w1 w2 (by
            rw [← abs_pow, ← abs_mul, hp, abs_mul, abs_pow]; exact hab) hsq.2 (by
            rcases hnz with rfl | hb0
            · left; simp
            · rcases eq_or_ne a 0 with rfl | ha
              · left; simp
              · right; exact mul_ne_zero hb0 ha)
          rw [hp] at this; exact this
        · rw [if_neg h2, e1]
          have hn : n = 2 * (n / 2) := by omega
          have hp : b * (a * a) ^ (n / 2) = b * a ^ n := by
            conv_rhs => rw [hn]
            ring
          have := ih (n / 2) hlt (a * a) b w1 zb (by
            rw [← abs_pow, ← abs_mul, hp, abs_mul, abs_pow]; exact hab) hb (by
            rcases hnz with rfl | hb0
            · left; simp
            · right; exact hb0)
          rw [hp] at this; exact this
      · rw [if_neg h1]
        by_cases h2 : n = 1
        · rw [if_pos h2]; subst h2
          obtain ⟨w, e⟩ := hmul b a zb za (by rw [abs_mul]; simpa using hab)
          exact ⟨w, by rw [e]; simp⟩
        · have : n = 0 := by omega
          subst this; exact ⟨zb, by simp⟩
  have he : pow_integral_compute lo hi (i m : FV f) n = pow_integral_nonneg (i m : FV f) n hi := by
    unfold pow_integral_compute; rw [if_neg (by omega)]; simp
  rw [he, i_eq hm]
  have hone : (1:ℤ) ≤ 2 ^ f.prec := one_le_pow₀ (by norm_num)
  have hle : ∀ k, 1 ≤ k → k ≤ n → |m ^ k| ≤ 2 ^ f.prec := by
    intro k hk hkn
    rcases eq_or_ne m 0 with rfl | hm0
    · rw [zero_pow (by omega)]; simp
    · rw [abs_pow]; exact (pow_le_pow_right₀ (Int.one_le_abs hm0) hkn).trans h
  unfold pow_integral_nonneg
  by_cases a3 : n = 3
  · rw [if_pos a3]; subst a3
    obtain ⟨w1, e1⟩ := hmul m m false false (by rw [← pow_two]; exact hle 2 (by omega) (by omega))
    obtain ⟨w2, e2⟩ := hmul (m * m) m w1 false (by rw [← pow_two, ← pow_succ]; exact hle 3 (by omega) (by omega))
    exact ⟨w2, by rw [e1, e2]; congr 2; ring⟩
  rw [if_neg a3]
  by_cases a2 : n = 2
  · rw [if_pos a2]; subst a2
    obtain ⟨w1, e1⟩ := hmul m m false false (by rw [← pow_two]; exact hle 2 (by omega) (by omega))
    exact ⟨w1, by rw [e1]; congr 2; ring⟩
  rw [if_neg a2]
  by_cases a1 : n = 1
  · rw [if_pos a1]; subst a1; exact ⟨false, by simp⟩
  rw [if_neg a1]
  by_cases a0 : n = 0
  · rw [if_pos a0]; subst a0; exact ⟨false, by simp⟩
  rw [if_neg a0, if_neg hn, i_one]
  have := hrec n m 1 false false (by simpa using h) (by simpa using hone) (by right; norm_num)
  simpa using this

/-- instances: `1.1^10` in double (error bound with `|x| ≥ 1`), `0.3^20` (second alternative), `-3^33`. -/
example : (∃ s, pow_integral_int (d 1.1 : FV binary64) 10 = inf s) ∨
    ∃ r w, pow_integral_int (d 1.1 : FV binary64) 10 = fin r w ∧
      ∃ θ, r = (val (d 1.1 : FV binary64)) ^ 10 * θ ∧ (1 - uro binary64) ^ 9 ≤ θ
        ∧ θ ≤ (1 + uro binary64) ^ 9 := by
  have h : (d 1.1 : FV binary64) = fin (val (d 1.1 : FV binary64)) false := by decide +kernel
  have := C12_error_bound (f := binary64) rfl (-2 ^ 31) (2 ^ 31 - 1) (val (d 1.1 : FV binary64)) false
    (h ▸ valid_d _) (by decide +kernel) 10 (by decide) (Or.inl (by decide +kernel))
  rw [← h] at this
  exact this
example : minNormal binary64 ≤ (1 - uro binary64) ^ 20 * |(val (d 0.3 : FV binary64))| ^ 20 := by
  decide +kernel
example : ∃ w, pow_integral_int (i (-3) : FV binary64) 33 = fin (((-3) ^ 33 : ℤ) : ℚ) w :=
  C12_exact_integers (f := binary64) (-2 ^ 31) (2 ^ 31 - 1) (-3) 33 (by decide) (by decide) (by decide)

example : ∃ r w, pow_integral_int (i 10 : FV binary64) 300 = fin r w ∧
    ∃ θ, r = 10 ^ 300 * θ ∧ (1 - uro binary64) ^ 299 ≤ θ ∧ θ ≤ (1 + uro binary64) ^ 299 := by
  have h : (i 10 : FV binary64) = fin 10 false := by decide +kernel
  rw [h]
  exact C12_finite (f := binary64) rfl (-2 ^ 31) (2 ^ 31 - 1) 10 false (by decide +kernel) (by norm_num) 300
    (by decide) (by decide +kernel)

end Gcem.Props
