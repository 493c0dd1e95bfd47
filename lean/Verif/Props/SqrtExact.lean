import Verif.Analysis.SqrtExact
import Verif.Props.Sqrt

/-!
# C91: square roots of exact squares
-/

namespace Gcem
open FV
variable {f : Fmt}

theorem rep_half_of {r : ℚ} (hf : f.exact = false) (hr : Rep f r) (h : 2 * minNormal f ≤ r) : Rep f (r / 2) := by
  have hmn := minNormal_pos f
  have := rep_half (f := f) (q := r) hf hr (by rw [abs_of_pos (by linarith)]; linarith)
  unfold Rep
  rw [show r / 2 = 1 / 2 * r by ring]; exact this

theorem exactRoot_of {r : ℚ} (hf : f.exact = false) (hr0 : 0 < r) (hr : Rep f r) (hq : Rep f (r * r))
    (hn : minNormal f ≤ r * r) (hlo : (1:ℚ) / 2 ^ 89 ≤ r) : ExactRoot f r := by
  refine ⟨hf, hr0, hr, hq, ?_⟩
  have hl : pow2 (sqrtLowE f.ty) ≤ r := by
    rcases f with ⟨t, e⟩
    cases t
    · have e1 : minNormal ⟨FTy.float, e⟩ = (1 / 2 ^ 63) ^ 2 := by
        unfold minNormal; rw [pow2_eq]; norm_num [Fmt.emin, Fmt.prec, FTy.emin, FTy.prec]
      rw [e1, ← sq] at hn
      have := (sq_le_sq₀ (by positivity) hr0.le).1 hn
      refine le_trans (le_of_eq ?_) this
      rw [pow2_eq]; norm_num [sqrtLowE]
    all_goals
      refine le_trans (le_trans (le_of_eq ?_) (show (1:ℚ) / 2 ^ 90 ≤ 1 / 2 ^ 89 by norm_num)) hlo
      rw [pow2_eq]; norm_num [sqrtLowE]
  have h1 : pow2 (f.emin + f.prec - 1 + 5) = 32 * minNormal f := by
    unfold minNormal; rw [pow2_add]; norm_num [pow2_eq]; ring
  have h2 : pow2 (f.emin + f.prec - 1 + 5) ≤ uro f ^ 2 * pow2 (sqrtLowE f.ty) := by
    unfold uro
    rw [sq, ← pow2_add, ← pow2_add]
    exact pow2_le (by rcases f with ⟨⟨⟩, ⟨⟩⟩ <;> decide)
  have h3 : uro f ^ 2 * pow2 (sqrtLowE f.ty) ≤ uro f ^ 2 * r :=
    mul_le_mul_of_nonneg_left hl (by positivity)
  linarith

theorem simplify_exact (hf : f.exact = false) (k : ℕ) : ∀ (r : ℚ) (j fuel : ℕ) (x m : FV f),
    0 < r → Rep f r → Rep f (r * r) → minNormal f ≤ r * r → (1:ℚ) / 2 ^ 89 ≤ r → r * r ≤ 4 ^ (k + 1) →
    r * r ≤ 100 → Is x (r * r) → Is m (2 ^ j) → k < fuel → j + k ≤ 100 → Rep f (2 ^ j * r) →
    ∃ y : FV f, sqrt_simplify fuel x m = .ok y ∧ Is y (2 ^ j * r) ∧ Valid y := by
  have hmn4 := minNormal_lt_one f
  induction k with
  | zero =>
    intro r j fuel x m hr0 hr hq hn hlo h4 h100 hx hm hfu hj hrep
    obtain ⟨n, rfl⟩ : ∃ n, fuel = n + 1 := ⟨fuel - 1, by omega⟩
    have h4' : r * r ≤ 4 := by simpa using h4
    have hlow : pow2 (2 * sqrtLowE f.ty) ≤ r * r := by
      rcases f with ⟨t, e⟩
      cases t
      · exact hn
      all_goals
        refine le_trans (le_trans (le_of_eq ?_) (show (1:ℚ) / 2 ^ 180 ≤ (1 / 2 ^ 89) * (1 / 2 ^ 89) by norm_num))
          (mul_le_mul hlo hlo (by positivity) hr0.le)
        rw [pow2_eq]; norm_num [sqrtLowE]
    refine ⟨_, (reduce_done hx hq (le_refl 1) h4').2 n, ?_, valid_mul _ _⟩
    have h1 := (exactRoot_of hf hr0 hr hq hn hlo).recur_spec (sqrtArg_of hf hlow h4') hx hlo
    have hr2 : r ≤ 2 := by nlinarith
    have hb : (2:ℚ) ^ j * r ≤ 2 ^ 101 := by
      have : (2:ℚ) ^ j ≤ 2 ^ 100 := pow_le_pow_right₀ (by norm_num) (by omega)
      calc (2:ℚ) ^ j * r ≤ 2 ^ 100 * 2 := mul_le_mul this hr2 hr0.le (by positivity)
        _ = 2 ^ 101 := by norm_num
    have h2 := hm.mul h1 (nov (by
      rw [abs_of_pos (by positivity)]
      refine hb.trans (by norm_num)))
    rwa [show rnd f (2 ^ j * r) = 2 ^ j * r from hrep] at h2
  | succ k ih =>
    intro r j fuel x m hr0 hr hq hn hlo h4 h100 hx hm hfu hj hrep
    by_cases hle : r * r ≤ 4 ^ (k + 1)
    · exact ih r j fuel x m hr0 hr hq hn hlo hle h100 hx hm (by omega) (by omega) hrep
    push Not at hle
    have hgt : 4 < r * r := by
      refine lt_of_le_of_lt ?_ hle
      calc (4:ℚ) = 4 ^ 1 := by norm_num
        _ ≤ 4 ^ (k + 1) := pow_le_pow_right₀ (by norm_num) (by omega)
    have hr2 : 2 < r := by nlinarith
    obtain ⟨n, rfl⟩ : ∃ n, fuel = n + 1 := ⟨fuel - 1, by omega⟩
    have i100 : Is (i 100 : FV f) 100 := by have := is_i (f := f) (n := 100) (by decide); simpa using this
    have i4 : Is (i 4 : FV f) 4 := by have := is_i (f := f) (n := 4) (by decide); simpa using this
    have i2 : Is (i 2 : FV f) 2 := by have := is_i (f := f) (n := 2) (by decide); simpa using this
    have hstep : sqrt_simplify (n + 1) x m = sqrt_simplify n (x / i 4) (i 2 * m) := by
      rw [sqrt_simplify]
      simp only [is_1e8.lt_iff hx, is_1e6.lt_iff hx, is_1e4.lt_iff hx, i100.lt_iff hx, i4.lt_iff hx]
      rw [if_neg (by linarith), if_neg (by linarith), if_neg (by linarith), if_neg (by linarith),
        if_pos hgt]
    have hr' : Rep f (r / 2) := rep_half_of hf hr (by linarith)
    have hq4 : Rep f (r * r / 4) := by
      have h1 := rep_half_of hf hq (by linarith)
      have h2 := rep_half_of hf h1 (by linarith)
      rwa [show r * r / 2 / 2 = r * r / 4 by ring] at h2
    have e4 : r / 2 * (r / 2) = r * r / 4 := by ring
    have hx' : Is (x / i 4) (r / 2 * (r / 2)) := by
      have := hx.div i4 (by norm_num) (nov (by
        rw [abs_of_pos (by positivity)]; norm_num; linarith))
      rwa [show rnd f (r * r / 4) = r * r / 4 from hq4, ← e4] at this
    have e2 : (2:ℚ) * 2 ^ j = 2 ^ (j + 1) := by ring
    have hm' : Is (i 2 * m) (2 ^ (j + 1)) := by
      have := i2.mul hm (nov (by
        rw [abs_of_pos (by positivity), e2]
        exact (pow_le_pow_right₀ (by norm_num) (by omega)).trans
          (le_refl ((2:ℚ) ^ 127))))
      rwa [e2, show rnd f (2 ^ (j + 1)) = 2 ^ (j + 1) from rep_pow2_nat] at this
    have e3 : (2:ℚ) ^ (j + 1) * (r / 2) = 2 ^ j * r := by ring
    have hlo' : (1:ℚ) / 2 ^ 89 ≤ r / 2 := by
      have : (1:ℚ) / 2 ^ 89 ≤ 1 := by norm_num
      linarith
    obtain ⟨y, hy, hy2, hv⟩ := ih (r / 2) (j + 1) n (x / i 4) (i 2 * m) (by linarith) hr' (by rw [e4]; exact hq4)
      (by rw [e4]; linarith) hlo'
      (by rw [e4]; rw [pow_succ] at h4; linarith) (by rw [e4]; linarith) hx' hm' (by omega) (by omega)
      (by rw [e3]; exact hrep)
    exact ⟨y, by rw [hstep, hy], by rw [← e3]; exact hy2, hv⟩

end Gcem

namespace Gcem.Props
open FV
variable {f : Fmt}

/-- C91: in every floating-point type, if `r` and `r²` are both representable, `r²` is normal and
`2^-89 ≤ r ≤ 10`, then `sqrt(r²)` is exactly `r`. -/
theorem C91_exact_square (hf : f.exact = false) (r : ℚ) (z : Bool) (hr : Valid (fin r false : FV f))
    (hx : Valid (fin (r * r) z : FV f)) (hn : minNormal f ≤ r * r) (hlo : (1:ℚ) / 2 ^ 89 ≤ r)
    (hhi : r ≤ 10) : sqrt (fin (r * r) z : FV f) = .ok (fin r false) := by
  have hr0 : 0 < r := lt_of_lt_of_le (by positivity) hlo
  have hq0 : 0 < r * r := mul_pos hr0 hr0
  rcases sqrt_normal hx hn with ⟨h1, h⟩ | h
  · -- the argument is 1
    have hmn4 := minNormal_lt_one f
    have hq1 : r * r = 1 := by
      obtain ⟨a1, a2⟩ := abs_lt.1 h1
      have hone : Rep f 1 := by have := rep_pow2_nat (f := f) (n := 0); simpa using this
      obtain ⟨k, hk⟩ := mult_of_ge hf hx.rep (by norm_num : (0:ℚ) < 1 / 2) (by linarith)
      obtain ⟨l, hl⟩ := mult_of_ge hf hone (by norm_num : (0:ℚ) < 1 / 2) (by norm_num)
      have hD := pow2_pos (fexp f (1 / 2))
      have hDl : minNormal f ≤ pow2 (fexp f (1 / 2)) := by
        rw [fexp_normal (by rw [abs_of_pos (by norm_num)]; linarith)]
        have : ilog2 (1 / 2) = -1 := by decide +kernel
        rw [this]
        exact pow2_le (by rcases f with ⟨⟨⟩, ⟨⟩⟩ <;> decide)
      have h2 : |((l - k : ℤ) : ℚ)| < 1 := by
        have h3 : 1 - r * r = ((l - k : ℤ) : ℚ) * pow2 (fexp f (1 / 2)) := by
          push_cast; rw [sub_mul, ← hk, ← hl]
        rw [h3, abs_mul, abs_of_pos hD] at h1
        by_contra hc; push Not at hc
        nlinarith
      have h4 : |l - k| < 1 := by exact_mod_cast h2
      have h5 : l = k := by
        have := Int.abs_lt_one_iff.1 h4; omega
      rw [hk, ← h5, ← hl]
    have hr1 : r = 1 := by nlinarith
    rw [h, hx.z_false hq0.ne', hq1, hr1]
  · obtain ⟨y, hy, ⟨w, hw⟩, hv⟩ := simplify_exact hf 3 r 0 recFuel (fin (r * r) z) (i 1) hr0 hr.rep hx.rep hn hlo
      (by norm_num; nlinarith) (by nlinarith) (is_fin _ _) (by rw [i_one]; exact is_fin _ _)
      (by unfold recFuel; norm_num) (by norm_num) (by simpa using hr.rep)
    rw [pow_zero, one_mul] at hw
    rw [hw] at hv hy
    rw [h, hy, hv.z_false hr0.ne']

/-- The hypotheses of `C91_exact_square` hold, for instance, for `r = 9.875` in float, where the
argument is reduced three times. -/
example : Valid (fin (79 / 8) false : FV binary32) ∧ Valid (fin (79 / 8 * (79 / 8)) false : FV binary32) ∧
    minNormal binary32 ≤ 79 / 8 * (79 / 8) ∧ (79 / 8 : ℚ) ≤ 10 ∧
    sqrt (fin (6241 / 64) false : FV binary32) = .ok (fin (79 / 8) false) := by
  refine ⟨by decide +kernel, by decide +kernel, by decide +kernel, by norm_num, by decide +kernel⟩

/-- C91, in terms of integers: `sqrt(n * n) == n` for the integers 1 to 10, in every type. -/
theorem C91_small_integers (hf : f.exact = false) (n : ℕ) (h1 : 1 ≤ n) (h10 : n ≤ 10) :
    sqrt (i (n * n) : FV f) = .ok (i n) := by
  have hn : |(n:ℤ)| ≤ 16777216 := by rw [abs_of_nonneg (by positivity)]; exact_mod_cast h10.trans (by norm_num)
  have hn2 : |((n * n : ℕ) : ℤ)| ≤ 16777216 := by
    rw [abs_of_nonneg (by positivity)]
    have : n * n ≤ 100 := by nlinarith
    exact_mod_cast this.trans (by norm_num)
  have e1 : (i n : FV f) = fin n false := by
    have := i_small (f := f) (n := (n:ℤ)) hn; simpa using this
  have e2 : (i (n * n) : FV f) = fin ((n:ℚ) * n) false := by
    have := i_small (f := f) (n := ((n * n : ℕ) : ℤ)) hn2; push_cast at this; simpa using this
  have v1 : Valid (fin (n:ℚ) false : FV f) := by rw [← e1]; exact valid_i _
  have v2 : Valid (fin ((n:ℚ) * n) false : FV f) := by rw [← e2]; exact valid_i _
  have hq1 : (1:ℚ) ≤ n := by exact_mod_cast h1
  have := minNormal_lt_one f
  rw [e1, e2]
  exact C91_exact_square hf n false v1 v2 (by nlinarith) (le_trans (by norm_num) hq1) (by exact_mod_cast h10)

/-- C91: beyond 100 the reduction divides by 100, 10^4, 10^6 or 10^8, which is not exact in general:
`sqrt(169.0)` is below 13, `sqrt(196.0f)` and `sqrt(196.0L)` are above 14, `sqrt(256.0f)` is below 16,
although all these squares and roots are representable. -/
theorem C91_not_beyond :
    sqrt (i 169 : FV binary64) = .ok (fin (13 - 1 / 2 ^ 49) false) ∧
    sqrt (i 196 : FV binary32) = .ok (fin (14 + 1 / 2 ^ 20) false) ∧
    sqrt (i 196 : FV x87) = .ok (fin (14 + 1 / 2 ^ 60) false) ∧
    sqrt (i 256 : FV binary32) = .ok (fin (16 - 1 / 2 ^ 20) false) := by
  refine ⟨by decide +kernel, by decide +kernel, by decide +kernel, by decide +kernel⟩

/-- C91, `hypot`: if the quotient `t = y / x`, its square, `1 + t²` and the root `s` of that are all
representable and `s ≤ 10`, then `hypot(x, y)` is the correctly rounded value of `|x| * s`. -/
theorem C91_hypot (hf : f.exact = false) (x t s : ℚ) (zx zy : Bool) (hx : Valid (fin x zx : FV f))
    (hy : Valid (fin (t * x) zy : FV f)) (ht : Valid (fin t false : FV f))
    (ht2 : Valid (fin (t * t) false : FV f)) (hs : Valid (fin s false : FV f))
    (hs2 : Valid (fin (s * s) false : FV f)) (hst : s * s = 1 + t * t) (hs0 : 0 < s) (hs10 : s ≤ 10)
    (hxn : minNormal f ≤ |x|) (hyn : minNormal f ≤ |t * x|) :
    hypot (fin x zx : FV f) (fin (t * x) zy) = .ok (fin |x| false * fin s false) := by
  have hmn := minNormal_pos f
  have hx0 : x ≠ 0 := by rintro rfl; simp at hxn; linarith
  unfold hypot hypot_vals_check
  rw [if_neg (by simp [any_nan]), if_neg (by simp [any_inf]),
    if_neg (by rw [limMin_gt_fabs]; linarith), if_neg (by rw [limMin_gt_fabs]; linarith)]
  unfold hypot_compute
  have hq : Is ((fin (t * x) zy : FV f) / fin x zx) t := by
    have e : t * x / x = t := by field_simp
    have := (is_fin (f := f) (t * x) zy).div (is_fin x zx) hx0 (by
      rw [e, show rnd f t = t from ht.rep]; exact ht.novf)
    rwa [e, show rnd f t = t from ht.rep] at this
  obtain ⟨w, hw⟩ := hq
  rw [hw]
  have hm : Is ((fin t w : FV f) * fin t w) (t * t) := by
    have := (is_fin (f := f) t w).mul (is_fin t w) (by
      rw [show rnd f (t * t) = t * t from ht2.rep]; exact ht2.novf)
    rwa [show rnd f (t * t) = t * t from ht2.rep] at this
  have ha : Is (i 1 + (fin t w : FV f) * fin t w) (s * s) := by
    rw [i_one]
    have := (is_fin (f := f) 1 false).add hm (by
      rw [← hst, show rnd f (s * s) = s * s from hs2.rep]; exact hs2.novf)
    rwa [← hst, show rnd f (s * s) = s * s from hs2.rep] at this
  obtain ⟨v, hv⟩ := ha
  have hvv : Valid (fin (s * s) v : FV f) := by rw [← hv]; exact valid_add _ _
  have hs1 : 1 ≤ s := by nlinarith [mul_self_nonneg t]
  have := minNormal_lt_one f
  rw [hv, C91_exact_square hf s v hs hvv (by nlinarith) (le_trans (by norm_num) hs1) hs10]
  rw [fabs_fin hx]
  rfl

/-- C91: `hypot(4a, 3a) == 5|a|` for every `a` of every sign for which the three multiples are
representable and `3a` is normal. -/
theorem C91_hypot_4_3 (hf : f.exact = false) (a : ℚ) (zx zy : Bool) (h4 : Valid (fin (4 * a) zx : FV f))
    (h3 : Valid (fin (3 * a) zy : FV f)) (h5 : Valid (fin |5 * a| false : FV f))
    (hn : minNormal f ≤ |3 * a|) :
    hypot (fin (4 * a) zx : FV f) (fin (3 * a) zy) = .ok (fin |5 * a| false) := by
  have e : 3 * a = 3 / 4 * (4 * a) := by ring
  have h34 : |3 * a| ≤ |4 * a| := by
    rw [abs_mul, abs_mul]
    exact mul_le_mul_of_nonneg_right (by norm_num) (abs_nonneg a)
  rw [e] at h3 hn ⊢
  have h := C91_hypot hf (4 * a) (3 / 4) (5 / 4) zx zy h4 h3
    (by rcases f with ⟨⟨⟩, ⟨⟩⟩ <;> decide +kernel) (by rcases f with ⟨⟨⟩, ⟨⟩⟩ <;> decide +kernel)
    (by rcases f with ⟨⟨⟩, ⟨⟩⟩ <;> decide +kernel) (by rcases f with ⟨⟨⟩, ⟨⟩⟩ <;> decide +kernel)
    (by norm_num) (by norm_num) (by norm_num) (by rw [← e] at hn; linarith) hn
  rw [h, fin_mul]
  have e5 : |4 * a| * (5 / 4) = |5 * a| := by
    rw [abs_mul, abs_mul, abs_of_pos (by norm_num : (0:ℚ) < 4), abs_of_pos (by norm_num : (0:ℚ) < 5)]; ring
  have h0 : |5 * a| ≠ 0 := by
    have := minNormal_pos f
    rw [← e] at hn
    intro h0
    have : a = 0 := by simpa using h0
    subst this
    simp at hn; linarith
  rw [e5, mk_of_rep h5.rep h5.novf, decide_eq_false h0]
  rfl

/-- The hypotheses of `C91_hypot_4_3` hold, for instance, for `a = 3` in double.  The order of the
arguments matters: `hypot(12, 9)` is 15, `hypot(9, 12)` and `hypot(5, 12)` are below 15 and 13. -/
theorem C91_hypot_order :
    hypot (i 12 : FV binary64) (i 9) = .ok (i 15) ∧
    hypot (i 9 : FV binary64) (i 12) = .ok (fin (15 - 1 / 2 ^ 49) false) ∧
    hypot (i 5 : FV binary64) (i 12) = .ok (fin (13 - 1 / 2 ^ 49) false) ∧
    hypot (i 9 : FV binary32) (i 12) = .ok (fin (15 + 1 / 2 ^ 20) false) ∧
    hypot (i 9 : FV x87) (i 12) = .ok (fin (15 + 1 / 2 ^ 60) false) := by
  refine ⟨by decide +kernel, by decide +kernel, by decide +kernel, by decide +kernel, by decide +kernel⟩

example : Valid (fin (4 * 3) false : FV binary64) ∧ Valid (fin (3 * 3) false : FV binary64) ∧
    Valid (fin |5 * 3| false : FV binary64) ∧ minNormal binary64 ≤ |3 * 3| := by
  refine ⟨by decide +kernel, by decide +kernel, by decide +kernel, by decide +kernel⟩

end Gcem.Props
