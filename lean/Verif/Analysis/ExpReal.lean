import Verif.Analysis.ExpCf
import Verif.Analysis.Consts

/-!
# Truncation error of the continued fraction of `exp`
-/

namespace Gcem
open Finset

/-- numerators of the continued fraction -/
def expT (x : ℚ) : ℕ → ℚ
  | 0 => 1 / (1 - x / 24)
  | n + 1 => 1 + x / (23 - n) * expT x n

theorem expR_ne {x : ℚ} (hx : |x| ≤ 2) (k : ℕ) (hk : k ≤ 23) : 0 < expR x k := by
  rw [abs_le] at hx
  rcases le_total x 0 with h | h
  · rcases Nat.lt_or_ge k 23 with h' | h'
    · have l := (expR_neg h hx.1 k (by omega)).1
      have hk' : (k : ℚ) ≤ 22 := by exact_mod_cast (by omega : k ≤ 22)
      have : -1 / 2 ≤ x / ((24 - k) * (25 - k)) := by
        rw [le_div_iff₀ (mul_pos (by linarith) (by linarith))]; nlinarith
      linarith
    · have : k = 23 := by omega
      subst this
      linarith [(expR_neg_23 h hx.1).1]
  · linarith [(expR_pos h k hk).1]

theorem expT_succ {x : ℚ} (hx : |x| ≤ 2) : ∀ k : ℕ, k + 1 ≤ 23 →
    expT x (k + 1) = expR x (k + 1) * expT x k
  | 0, _ => by
    have h24 : 1 - x / 24 ≠ 0 := by
      rw [abs_le] at hx; intro h; linarith [hx.2]
    have h24' : 24 - x ≠ 0 := by intro h; apply h24; linarith
    simp only [expT, expR, Nat.cast_zero, sub_zero, div_one]
    field_simp
    ring
  | k + 1, hk => by
    have ih := expT_succ hx k (by omega)
    have hr := (expR_ne hx (k + 1) (by omega)).ne'
    have hk' : (k : ℚ) + 1 + 1 ≤ 23 := by exact_mod_cast hk
    have hq : x / (24 - ((k + 1 : ℕ) : ℚ)) / expR x (k + 1) * expT x (k + 1) = x / (23 - (k:ℚ)) * expT x k := by
      rw [ih]
      push_cast
      rw [show (24 : ℚ) - (k + 1) = 23 - k by ring]
      field_simp
    rw [show expR x (k + 1 + 1) = 1 + x / (23 - ((k + 1 : ℕ) : ℚ))
      - x / (24 - ((k + 1 : ℕ) : ℚ)) / expR x (k + 1) from rfl, sub_mul, hq,
      show expT x (k + 1 + 1) = 1 + x / (23 - ((k + 1 : ℕ) : ℚ)) * expT x (k + 1) from rfl]
    have : expT x (k + 1) = 1 + x / (23 - (k:ℚ)) * expT x k := rfl
    linear_combination (-1 : ℚ) * this

theorem expT_ne {x : ℚ} (hx : |x| ≤ 2) : ∀ k : ℕ, k ≤ 23 → 0 < expT x k
  | 0, _ => by
    rw [abs_le] at hx
    have : 0 < 1 - x / 24 := by linarith [hx.2]
    simp only [expT]; positivity
  | k + 1, hk => by
    rw [expT_succ hx k hk]
    exact mul_pos (expR_ne hx _ hk) (expT_ne hx k (by omega))

theorem expCf_eq {x : ℚ} (hx : |x| ≤ 2) : expCf x = expT x 23 := by
  have h := expT_succ hx 22 (by norm_num)
  have h22 := expT_ne hx 22 (by norm_num)
  have h23 := expT_ne hx 23 (by norm_num)
  have hr := expR_ne hx 23 (by norm_num)
  have e : expT x 23 = 1 + x * expT x 22 := by
    rw [show (23 : ℕ) = 22 + 1 from rfl, expT]; norm_num
  norm_num at h
  unfold expCf
  have : x / expR x 23 = x * expT x 22 / expT x 23 := by
    rw [h]; field_simp
  rw [this]
  have : 1 - x * expT x 22 / expT x 23 = 1 / expT x 23 := by
    field_simp; linarith
  rw [this]; field_simp

theorem expT_horner (x : ℚ) : ∀ n : ℕ, n ≤ 23 →
    expT x n = hornerExp x n (23 - n) + x ^ n * ((23 - n).factorial : ℚ) / (Nat.factorial 23 : ℚ) * expT x 0
  | 0, _ => by simp [hornerExp]; field_simp
  | n + 1, hn => by
    have ih := expT_horner x n (by omega)
    have hn' : (n : ℚ) + 1 ≤ 23 := by exact_mod_cast hn
    have c : ((23 - (n + 1) : ℕ) : ℚ) + 1 = 23 - n := by
      rw [Nat.cast_sub hn]; push_cast; ring
    have e : 23 - (n + 1) + 1 = 23 - n := by omega
    have hf : ((23 - n).factorial : ℚ) = (23 - n) * ((23 - (n + 1)).factorial : ℚ) := by
      rw [← e, Nat.factorial_succ, Nat.cast_mul, Nat.cast_add, Nat.cast_one, c]
    have h0 : (23 : ℚ) - n ≠ 0 := by intro h; linarith
    have hF : (Nat.factorial 23 : ℚ) ≠ 0 := by exact_mod_cast Nat.factorial_ne_zero 23
    rw [show expT x (n + 1) = 1 + x / (23 - n) * expT x n from rfl, ih, hornerExp, c, e, hf, pow_succ]
    generalize hornerExp x n (23 - n) = H
    generalize expT x 0 = T
    generalize ((23 - (n + 1)).factorial : ℚ) = F
    generalize (Nat.factorial 23 : ℚ) = G at *
    field_simp
    ring

theorem real_exp_taylor {x : ℝ} (hx : |x| ≤ 2) {n : ℕ} (hn : 4 ≤ n) :
    |Real.exp x - ∑ m ∈ range n, x ^ m / (m.factorial : ℝ)| ≤ |x| ^ n / (n.factorial : ℝ) * 2 := by
  have h := Complex.exp_bound' (x := (x : ℂ)) (n := n) (by
    rw [Complex.norm_real, Real.norm_eq_abs, div_le_iff₀ (by positivity)]
    have : (4 : ℝ) ≤ n := by exact_mod_cast hn
    push_cast; linarith)
  rw [Complex.norm_real, Real.norm_eq_abs] at h
  have e : Complex.exp (x : ℂ) - ∑ m ∈ range n, (x : ℂ) ^ m / (m.factorial : ℂ)
      = ((Real.exp x - ∑ m ∈ range n, x ^ m / (m.factorial : ℝ) : ℝ) : ℂ) := by push_cast; rfl
  rw [e, Complex.norm_real, Real.norm_eq_abs] at h
  exact h

theorem expCf_trunc {x : ℚ} (hx : |x| ≤ 2) :
    |((expCf x : ℚ) : ℝ) - Real.exp x| ≤ 1 / 10 ^ 18 * Real.exp x := by
  have hxr : |(x : ℝ)| ≤ 2 := by exact_mod_cast hx
  have ht := real_exp_taylor hxr (n := 29) (by norm_num)
  have hs := expLo_cast x 23
  rw [expLo] at hs
  have hc : ((expCf x : ℚ) : ℝ) = ∑ m ∈ range 23, (x : ℝ) ^ m / (m.factorial : ℝ)
      + (x : ℝ) ^ 23 / (Nat.factorial 23 : ℝ) * (1 / (1 - x / 24)) := by
    rw [expCf_eq hx, expT_horner x 23 (le_refl _), ← hs, expT]
    simp only [Nat.sub_self, Nat.factorial_zero]
    push_cast
    ring
  have hp : (0:ℝ) < 1 - x / 24 := by rw [abs_le] at hxr; linarith [hxr.2]
  -- the six additional Taylor terms against the geometric tail
  set y : ℝ := (x : ℝ) with hy
  have hsum : ∑ m ∈ range 29, y ^ m / (m.factorial : ℝ) = ∑ m ∈ range 23, y ^ m / (m.factorial : ℝ)
      + y ^ 23 / (Nat.factorial 23 : ℝ) * (1 + y / 24 + y ^ 2 / 600 + y ^ 3 / 15600 + y ^ 4 / 421200
        + y ^ 5 / 11793600) := by
    rw [sum_range_succ, sum_range_succ, sum_range_succ, sum_range_succ, sum_range_succ, sum_range_succ]
    norm_num [Nat.factorial]
    ring
  have hd : ((expCf x : ℚ) : ℝ) - ∑ m ∈ range 29, y ^ m / (m.factorial : ℝ)
      = y ^ 23 / (Nat.factorial 23 : ℝ) * ((y ^ 2 * (1 / 576 - 1 / 600) + y ^ 3 * (1 / 14400 - 1 / 15600)
        + y ^ 4 * (1 / (24 * 15600) - 1 / 421200) + y ^ 5 * (1 / (24 * 421200) - 1 / 11793600)
        + y ^ 6 / (24 * 11793600)) / (1 - y / 24)) := by
    have hp' : (24:ℝ) - y ≠ 0 := by intro h; linarith
    rw [hc, hsum]
    field_simp
    ring
  have a2 : y ^ 2 ≤ 4 := by rw [← sq_abs]; nlinarith [abs_nonneg y]
  have p1 : ∀ n : ℕ, |y ^ n| ≤ 2 ^ n := fun n => by
    rw [abs_pow]; exact pow_le_pow_left₀ (abs_nonneg _) hxr n
  have b : |y ^ 2 * (1 / 576 - 1 / 600) + y ^ 3 * (1 / 14400 - 1 / 15600)
        + y ^ 4 * (1 / (24 * 15600) - 1 / 421200) + y ^ 5 * (1 / (24 * 421200) - 1 / 11793600)
        + y ^ 6 / (24 * 11793600)| ≤ 33 / 100000 := by
    have q2 := p1 2
    have q3 := p1 3
    have q4 := p1 4
    have q5 := p1 5
    have q6 := p1 6
    rw [abs_le] at q2 q3 q4 q5 q6 ⊢
    constructor <;> linarith [q2.1, q2.2, q3.1, q3.2, q4.1, q4.2, q5.1, q5.2, q6.1, q6.2]
  have hden : (11 / 12 : ℝ) ≤ 1 - y / 24 := by rw [abs_le] at hxr; linarith [hxr.2]
  have f23 : (Nat.factorial 23 : ℝ) = 25852016738884976640000 := by norm_num [Nat.factorial]
  have f29 : (Nat.factorial 29 : ℝ) = 8841761993739701954543616000000 := by norm_num [Nat.factorial]
  have hd' : |((expCf x : ℚ) : ℝ) - ∑ m ∈ range 29, y ^ m / (m.factorial : ℝ)| ≤ 12 / 10 ^ 20 := by
    rw [hd, abs_mul, abs_div, abs_div _ (1 - y / 24), abs_of_pos hp, f23]
    have c1 : |y ^ 23| / |25852016738884976640000| ≤ 2 ^ 23 / 25852016738884976640000 := by
      rw [abs_of_pos (by norm_num : (0:ℝ) < 25852016738884976640000)]
      exact div_le_div_of_nonneg_right (p1 23) (by norm_num)
    have c2 := div_le_div₀ (by norm_num) b (by norm_num) hden
    refine (mul_le_mul c1 c2 (by positivity) (by norm_num)).trans ?_
    norm_num
  have ht' : |Real.exp y - ∑ m ∈ range 29, y ^ m / (m.factorial : ℝ)| ≤ 1 / 10 ^ 21 := by
    refine ht.trans ?_
    rw [f29]
    have : |y| ^ 29 ≤ 2 ^ 29 := pow_le_pow_left₀ (abs_nonneg _) hxr 29
    have c := mul_le_mul_of_nonneg_right (div_le_div_of_nonneg_right this
      (by norm_num : (0:ℝ) ≤ 8841761993739701954543616000000)) (by norm_num : (0:ℝ) ≤ 2)
    refine c.trans (by norm_num)
  have he : (1 / 8 : ℝ) ≤ Real.exp y := by
    have h1 : Real.exp (-2) ≤ Real.exp y := Real.exp_le_exp.2 (by rw [abs_le] at hxr; exact hxr.1)
    refine le_trans ?_ h1
    rw [Real.exp_neg, show (2:ℝ) = 1 + 1 by norm_num, Real.exp_add, one_div]
    apply inv_anti₀ (by positivity)
    have := Real.exp_one_lt_d9
    have h0 := Real.exp_pos 1
    nlinarith
  have : ((expCf x : ℚ) : ℝ) - Real.exp y = (((expCf x : ℚ) : ℝ) - ∑ m ∈ range 29, y ^ m / (m.factorial : ℝ))
    - (Real.exp y - ∑ m ∈ range 29, y ^ m / (m.factorial : ℝ)) := by ring
  rw [this]
  refine (abs_sub _ _).trans ((add_le_add hd' ht').trans ?_)
  have : (1 / 10 ^ 18 : ℝ) * (1 / 8) ≤ 1 / 10 ^ 18 * Real.exp y := mul_le_mul_of_nonneg_left he (by norm_num)
  refine le_trans (by norm_num) this

end Gcem
