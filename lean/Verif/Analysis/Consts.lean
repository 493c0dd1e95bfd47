import Mathlib.Analysis.SpecialFunctions.Log.Basic
import Mathlib.Analysis.SpecialFunctions.Complex.Arctan
import Mathlib.Analysis.SpecialFunctions.Trigonometric.Arctan
import Mathlib.Analysis.SpecificLimits.Normed
import Mathlib.Analysis.Complex.ExponentialBounds
import Verif.Model.Const

/-!
# Rational enclosures of the mathematical constants

Taylor enclosures of `exp` and `arctan` at rational points, evaluated in `ℚ` by the kernel.
-/

namespace Gcem
open Real Finset

/-- `∑ m < n, x^m / m!` by Horner's rule: `hornerExp x n k = ∑ j < n, x^j * k! / (k+j)!` -/
def hornerExp (x : ℚ) : ℕ → ℕ → ℚ
  | 0, _ => 0
  | n + 1, k => 1 + x / (k + 1) * hornerExp x n (k + 1)

theorem hornerExp_eq (x : ℚ) (n k : ℕ) :
    hornerExp x n k / (k.factorial : ℚ) = ∑ m ∈ range n, x ^ m / ((k + m).factorial : ℚ) := by
  induction n generalizing k with
  | zero => simp [hornerExp]
  | succ n ih =>
    rw [sum_range_succ']
    have h := ih (k + 1)
    have hk : ((k + 1).factorial : ℚ) = (k + 1) * k.factorial := by
      rw [Nat.factorial_succ]; push_cast; ring
    have hf : (k.factorial : ℚ) ≠ 0 := by exact_mod_cast k.factorial_ne_zero
    have hk1 : ((k : ℚ) + 1) ≠ 0 := by positivity
    have e : ∑ m ∈ range n, x ^ (m + 1) / ((k + (m + 1)).factorial : ℚ)
        = x * ∑ m ∈ range n, x ^ m / ((k + 1 + m).factorial : ℚ) := by
      rw [mul_sum]
      refine sum_congr rfl fun m _ => ?_
      rw [show k + (m + 1) = k + 1 + m by ring, pow_succ]; ring
    rw [e, ← h, hk, hornerExp]
    simp only [pow_zero, add_zero]
    field_simp
    ring

/-- lower Taylor sum -/
def expLo (x : ℚ) (n : ℕ) : ℚ := hornerExp x n 0
/-- upper Taylor sum -/
def expHi (x : ℚ) (n : ℕ) : ℚ := hornerExp x n 0 + x ^ n * (n + 1) / (n.factorial * n)

theorem expLo_cast (x : ℚ) (n : ℕ) :
    ((expLo x n : ℚ) : ℝ) = ∑ m ∈ range n, (x : ℝ) ^ m / (m.factorial : ℝ) := by
  have h := hornerExp_eq x n 0
  simp only [Nat.factorial_zero, Nat.cast_one, div_one, zero_add] at h
  rw [expLo, h]; push_cast; rfl

theorem expLo_le (x : ℚ) (n : ℕ) (hx : 0 ≤ x) : ((expLo x n : ℚ) : ℝ) ≤ exp x := by
  rw [expLo_cast]
  exact Real.sum_le_exp_of_nonneg (by exact_mod_cast hx) n

theorem le_expHi (x : ℚ) (n : ℕ) (hx : 0 ≤ x) (hx1 : x ≤ 1) (hn : 0 < n) :
    exp x ≤ ((expHi x n : ℚ) : ℝ) := by
  have h := Real.exp_bound' (x := (x : ℝ)) (by exact_mod_cast hx) (by exact_mod_cast hx1) hn
  have e := expLo_cast x n
  rw [expHi, Rat.cast_add, show hornerExp x n 0 = expLo x n from rfl, e]
  push_cast
  exact h

/-- `a ≤ log q` from a kernel-checked inequality -/
theorem le_log_of (a q : ℚ) (k n : ℕ) (hk : 0 < k) (ha : 0 ≤ a) (ha1 : a ≤ k) (hn : 0 < n)
    (hq : 0 < q) (h : expHi (a / k) n ^ k ≤ q) :
    (a : ℝ) ≤ log (q : ℝ) := by
  have hk' : (0 : ℚ) < k := by exact_mod_cast hk
  rw [Real.le_log_iff_exp_le (by exact_mod_cast hq)]
  have e : exp (a : ℝ) = exp ((a / k : ℚ) : ℝ) ^ k := by
    rw [← Real.exp_nat_mul]; congr 1; push_cast
    field_simp
  rw [e]
  calc exp ((a / k : ℚ) : ℝ) ^ k ≤ ((expHi (a / k) n : ℚ) : ℝ) ^ k := by
        refine pow_le_pow_left₀ (exp_pos _).le ?_ k
        exact le_expHi _ _ (by positivity) (by rw [div_le_one hk']; exact ha1) hn
    _ ≤ q := by exact_mod_cast h

/-- `log q ≤ a` from a kernel-checked inequality -/
theorem log_le_of (a q : ℚ) (k n : ℕ) (hk : 0 < k) (ha : 0 ≤ a)
    (hq : 0 < q) (h0 : 0 ≤ expLo (a / k) n) (h : q ≤ expLo (a / k) n ^ k) :
    log (q : ℝ) ≤ a := by
  have hk' : (0 : ℚ) < k := by exact_mod_cast hk
  rw [Real.log_le_iff_le_exp (by exact_mod_cast hq)]
  have e : exp (a : ℝ) = exp ((a / k : ℚ) : ℝ) ^ k := by
    rw [← Real.exp_nat_mul]; congr 1; push_cast
    field_simp
  rw [e]
  calc (q : ℝ) ≤ ((expLo (a / k) n : ℚ) : ℝ) ^ k := by exact_mod_cast h
    _ ≤ _ := by
        refine pow_le_pow_left₀ (by exact_mod_cast h0) ?_ k
        exact expLo_le _ _ (by positivity)

/-- partial sums of the arctangent series -/
def atanSum (x : ℚ) (n : ℕ) : ℚ :=
  ((List.range n).map fun j : ℕ => (-1) ^ j * (x ^ (2 * j + 1) / (2 * (j : ℚ) + 1))).sum

theorem atanSum_cast (x : ℚ) (n : ℕ) : ((atanSum x n : ℚ) : ℝ)
    = ∑ j ∈ range n, (-1) ^ j * ((x : ℝ) ^ (2 * j + 1) / ((2 * j + 1 : ℕ) : ℝ)) := by
  induction n with
  | zero => simp [atanSum]
  | succ n ih =>
    have e : atanSum x (n + 1) = atanSum x n + (-1) ^ n * (x ^ (2 * n + 1) / (2 * n + 1)) := by
      simp [atanSum, List.range_succ]
    rw [e, Rat.cast_add, ih, sum_range_succ]; push_cast; rfl

theorem atan_series_bounds (x : ℚ) (hx : 0 ≤ x) (hx1 : x < 1) (k : ℕ) :
    ((atanSum x (2 * k) : ℚ) : ℝ) ≤ arctan x ∧ arctan x ≤ ((atanSum x (2 * k + 1) : ℚ) : ℝ) := by
  have hx' : (0 : ℝ) ≤ x := by exact_mod_cast hx
  have hx1' : (x : ℝ) < 1 := by exact_mod_cast hx1
  have hs := (Real.hasSum_arctan (x := (x : ℝ)) (by rw [Real.norm_of_nonneg hx']; exact hx1')).tendsto_sum_nat
  have anti : Antitone fun j : ℕ => (x : ℝ) ^ (2 * j + 1) / ((2 * j + 1 : ℕ) : ℝ) := by
    refine antitone_nat_of_succ_le fun j => ?_
    refine div_le_div₀ (by positivity) ?_ (by positivity) (by push_cast; linarith)
    exact pow_le_pow_of_le_one hx' hx1'.le (by omega)
  have hs' : Filter.Tendsto (fun n => ∑ j ∈ range n, (-1) ^ j *
      ((x : ℝ) ^ (2 * j + 1) / ((2 * j + 1 : ℕ) : ℝ))) Filter.atTop (nhds (arctan x)) := by
    refine hs.congr fun n => sum_congr rfl fun j _ => ?_
    rw [mul_div_assoc]
  constructor
  · rw [atanSum_cast]; exact anti.alternating_series_le_tendsto hs' k
  · rw [atanSum_cast]; exact anti.tendsto_le_alternating_series hs' k

/-- fifty digits of `π` -/
def PI50 : ℚ := 3.14159265358979323846264338327950288419716939937510

theorem PI50_lo : ((PI50 - 1 / 10 ^ 48 : ℚ) : ℝ) ≤ π := by
  have m := Real.four_mul_arctan_inv_5_sub_arctan_inv_239
  have a := (atan_series_bounds (1 / 5) (by norm_num) (by norm_num) 18).1
  have b := (atan_series_bounds (1 / 239) (by norm_num) (by norm_num) 7).2
  rw [show ((1 / 5 : ℚ) : ℝ) = (5 : ℝ)⁻¹ by norm_num] at a
  rw [show ((1 / 239 : ℚ) : ℝ) = (239 : ℝ)⁻¹ by norm_num] at b
  have c : PI50 - 1 / 10 ^ 48
      ≤ 4 * (4 * atanSum (1 / 5) (2 * 18) - atanSum (1 / 239) (2 * 7 + 1)) := by
    decide +kernel
  have c' : ((PI50 - 1 / 10 ^ 48 : ℚ) : ℝ)
      ≤ ((4 * (4 * atanSum (1 / 5) (2 * 18) - atanSum (1 / 239) (2 * 7 + 1)) : ℚ) : ℝ) := by
    exact_mod_cast c
  rw [Rat.cast_mul 4, Rat.cast_sub (4 * _), Rat.cast_mul, show ((4 : ℚ) : ℝ) = 4 by norm_num] at c'
  linarith

theorem PI50_hi : π ≤ ((PI50 + 1 / 10 ^ 48 : ℚ) : ℝ) := by
  have m := Real.four_mul_arctan_inv_5_sub_arctan_inv_239
  have a := (atan_series_bounds (1 / 5) (by norm_num) (by norm_num) 18).2
  have b := (atan_series_bounds (1 / 239) (by norm_num) (by norm_num) 7).1
  rw [show ((1 / 5 : ℚ) : ℝ) = (5 : ℝ)⁻¹ by norm_num] at a
  rw [show ((1 / 239 : ℚ) : ℝ) = (239 : ℝ)⁻¹ by norm_num] at b
  have c : 4 * (4 * atanSum (1 / 5) (2 * 18 + 1) - atanSum (1 / 239) (2 * 7))
      ≤ PI50 + 1 / 10 ^ 48 := by
    decide +kernel
  have c' : ((4 * (4 * atanSum (1 / 5) (2 * 18 + 1) - atanSum (1 / 239) (2 * 7)) : ℚ) : ℝ)
      ≤ ((PI50 + 1 / 10 ^ 48 : ℚ) : ℝ) := by
    exact_mod_cast c
  rw [Rat.cast_mul, Rat.cast_sub, Rat.cast_mul, show ((4 : ℚ) : ℝ) = 4 by norm_num] at c'
  linarith

/-- transfer a rational enclosure of width `ε` to the reals -/
theorem abs_sub_le_of {c ε : ℚ} {r : ℝ} (h1 : ((c - ε : ℚ) : ℝ) ≤ r) (h2 : r ≤ ((c + ε : ℚ) : ℝ)) :
    |(c : ℝ) - r| ≤ (ε : ℝ) := by
  rw [Rat.cast_sub] at h1
  rw [Rat.cast_add] at h2
  rw [abs_le]; constructor <;> linarith

theorem PI_err : |((PI : ℚ) : ℝ) - π| ≤ ((1 / (2 * 10 ^ 40) : ℚ) : ℝ) := by
  refine abs_sub_le_of (le_trans ?_ PI50_lo) (le_trans PI50_hi ?_)
  · have : PI - 1 / (2 * 10 ^ 40) ≤ PI50 - 1 / 10 ^ 48 := by decide +kernel
    exact_mod_cast this
  · have : PI50 + 1 / 10 ^ 48 ≤ PI + 1 / (2 * 10 ^ 40) := by decide +kernel
    exact_mod_cast this

theorem log_err (c ε q : ℚ) (k n : ℕ) (hk : 0 < k) (hn : 0 < n) (hq : 0 < q) (hε : 0 ≤ ε)
    (hc0 : 0 ≤ c - ε) (hc1 : c - ε ≤ k) (h0 : 0 ≤ expLo ((c + ε) / k) n)
    (h1 : expHi ((c - ε) / k) n ^ k ≤ q) (h2 : q ≤ expLo ((c + ε) / k) n ^ k) :
    |(c : ℝ) - log (q : ℝ)| ≤ (ε : ℝ) :=
  abs_sub_le_of (le_log_of _ _ k n hk hc0 hc1 hn hq h1)
    (log_le_of _ _ k n hk (by linarith) hq h0 h2)

theorem LOG_2_err : |((LOG_2 : ℚ) : ℝ) - log 2| ≤ ((1 / (2 * 10 ^ 40) : ℚ) : ℝ) := by
  have h := log_err LOG_2 (1 / (2 * 10 ^ 40)) 2 2 30 (by norm_num) (by norm_num) (by norm_num)
    (by norm_num) (by decide +kernel) (by decide +kernel) (by decide +kernel) (by decide +kernel)
    (by decide +kernel)
  exact_mod_cast h

theorem LOG_10_err : |((LOG_10 : ℚ) : ℝ) - log 10| ≤ ((1 / (2 * 10 ^ 40) : ℚ) : ℝ) := by
  have h := log_err LOG_10 (1 / (2 * 10 ^ 40)) 10 8 30 (by norm_num) (by norm_num) (by norm_num)
    (by norm_num) (by decide +kernel) (by decide +kernel) (by decide +kernel) (by decide +kernel)
    (by decide +kernel)
  exact_mod_cast h

theorem LOG_PI_err : |((LOG_PI : ℚ) : ℝ) - log π| ≤ ((1 / (2 * 10 ^ 40) : ℚ) : ℝ) := by
  have p1 : ((1 * (PI50 - 1 / 10 ^ 48) : ℚ) : ℝ) ≤ 1 * π := by
    have := PI50_lo
    rw [Rat.cast_mul, show ((1 : ℚ) : ℝ) = 1 by norm_num]; linarith
  have p2 : 1 * π ≤ ((1 * (PI50 + 1 / 10 ^ 48) : ℚ) : ℝ) := by
    have := PI50_hi
    rw [Rat.cast_mul, show ((1 : ℚ) : ℝ) = 1 by norm_num]; linarith
  have pos : (0 : ℝ) < ((1 * (PI50 - 1 / 10 ^ 48) : ℚ) : ℝ) := by
    have : (0 : ℚ) < 1 * (PI50 - 1 / 10 ^ 48) := by decide +kernel
    exact_mod_cast this
  rw [show π = 1 * π by ring]
  refine abs_sub_le_of ?_ ?_
  · refine le_trans ?_ (Real.log_le_log pos p1)
    exact le_log_of _ _ 8 30 (by norm_num) (by decide +kernel) (by decide +kernel) (by norm_num)
      (by decide +kernel) (by decide +kernel)
  · refine le_trans (Real.log_le_log (by have := Real.pi_pos; positivity) p2) ?_
    exact log_le_of _ _ 8 30 (by norm_num) (by decide +kernel) (by decide +kernel)
      (by decide +kernel) (by decide +kernel)

theorem LOG_2PI_err : |((LOG_2PI : ℚ) : ℝ) - log (2 * π)| ≤ ((1 / (2 * 10 ^ 40) : ℚ) : ℝ) := by
  have p1 : ((2 * (PI50 - 1 / 10 ^ 48) : ℚ) : ℝ) ≤ 2 * π := by
    have := PI50_lo
    rw [Rat.cast_mul, show ((2 : ℚ) : ℝ) = 2 by norm_num]; linarith
  have p2 : 2 * π ≤ ((2 * (PI50 + 1 / 10 ^ 48) : ℚ) : ℝ) := by
    have := PI50_hi
    rw [Rat.cast_mul, show ((2 : ℚ) : ℝ) = 2 by norm_num]; linarith
  have pos : (0 : ℝ) < ((2 * (PI50 - 1 / 10 ^ 48) : ℚ) : ℝ) := by
    have : (0 : ℚ) < 2 * (PI50 - 1 / 10 ^ 48) := by decide +kernel
    exact_mod_cast this
  rw [show (2 * π) = 2 * π by ring]
  refine abs_sub_le_of ?_ ?_
  · refine le_trans ?_ (Real.log_le_log pos p1)
    exact le_log_of _ _ 8 30 (by norm_num) (by decide +kernel) (by decide +kernel) (by norm_num)
      (by decide +kernel) (by decide +kernel)
  · refine le_trans (Real.log_le_log (by have := Real.pi_pos; positivity) p2) ?_
    exact log_le_of _ _ 8 30 (by norm_num) (by decide +kernel) (by decide +kernel)
      (by decide +kernel) (by decide +kernel)

theorem LOG_SQRT_2PI_err :
    |((LOG_SQRT_2PI : ℚ) : ℝ) - log (√(2 * π))| ≤ ((1 / (2 * 10 ^ 40) : ℚ) : ℝ) := by
  have h := abs_le.1 LOG_2PI_err
  have e : LOG_SQRT_2PI = LOG_2PI / 2 := by decide +kernel
  have e' : ((LOG_SQRT_2PI : ℚ) : ℝ) = ((LOG_2PI : ℚ) : ℝ) / 2 := by
    rw [e, Rat.cast_div]; norm_num
  have : (0 : ℝ) ≤ ((1 / (2 * 10 ^ 40) : ℚ) : ℝ) := by norm_num
  rw [Real.log_sqrt (by have := Real.pi_pos; positivity), e', abs_le]
  constructor <;> linarith [h.1, h.2]

theorem HALF_PI_err : |((HALF_PI : ℚ) : ℝ) - π / 2| ≤ ((1 / (2 * 10 ^ 40) : ℚ) : ℝ) := by
  have hp := abs_le.1 PI_err
  have e : HALF_PI = PI / 2 := by decide +kernel
  have e' : ((HALF_PI : ℚ) : ℝ) = ((PI : ℚ) : ℝ) / 2 := by rw [e, Rat.cast_div]; norm_num
  have : (0 : ℝ) ≤ ((1 / (2 * 10 ^ 40) : ℚ) : ℝ) := by norm_num
  rw [e', abs_le]; constructor <;> linarith [hp.1, hp.2]

theorem GCEM_E_err : |((GCEM_E : ℚ) : ℝ) - exp 1| ≤ ((1 / (2 * 10 ^ 40) : ℚ) : ℝ) := by
  have l := expLo_le 1 40 (by norm_num)
  have u := le_expHi 1 40 (by norm_num) (by norm_num) (by norm_num)
  rw [Rat.cast_one] at l u
  refine abs_sub_le_of (le_trans ?_ l) (le_trans u ?_)
  · have : GCEM_E - 1 / (2 * 10 ^ 40) ≤ expLo 1 40 := by decide +kernel
    exact_mod_cast this
  · have : expHi 1 40 ≤ GCEM_E + 1 / (2 * 10 ^ 40) := by decide +kernel
    exact_mod_cast this

/-- square roots: enclosure from squares -/
theorem sqrt_err {c ε lo hi : ℚ} {r : ℝ} (hc : 0 ≤ c - ε) (hε : 0 ≤ ε)
    (h1 : (lo : ℝ) ≤ r) (h2 : r ≤ (hi : ℝ)) (s1 : (c - ε) ^ 2 ≤ lo) (s2 : hi ≤ (c + ε) ^ 2) :
    |(c : ℝ) - √r| ≤ (ε : ℝ) := by
  have s1' : (((c - ε) ^ 2 : ℚ) : ℝ) ≤ ((lo : ℚ) : ℝ) := by exact_mod_cast s1
  have s2' : ((hi : ℚ) : ℝ) ≤ (((c + ε) ^ 2 : ℚ) : ℝ) := by exact_mod_cast s2
  rw [Rat.cast_pow] at s1' s2'
  refine abs_sub_le_of (Real.le_sqrt_of_sq_le (s1'.trans h1)) (Real.sqrt_le_iff.2 ⟨?_, h2.trans s2'⟩)
  have : 0 ≤ c + ε := by linarith
  exact_mod_cast this

theorem SQRT_2_err : |((SQRT_2 : ℚ) : ℝ) - √2| ≤ ((1 / (2 * 10 ^ 40) : ℚ) : ℝ) := by
  exact sqrt_err (lo := 2) (hi := 2) (by decide +kernel) (by norm_num)
    (by norm_num) (by norm_num) (by decide +kernel) (by decide +kernel)

theorem SQRT_PI_err : |((SQRT_PI : ℚ) : ℝ) - √π| ≤ ((1 / (2 * 10 ^ 40) : ℚ) : ℝ) :=
  sqrt_err (by decide +kernel) (by norm_num) PI50_lo PI50_hi (by decide +kernel)
    (by decide +kernel)

theorem SQRT_HALF_PI_err :
    |((SQRT_HALF_PI : ℚ) : ℝ) - √(π / 2)| ≤ ((1 / (2 * 10 ^ 40) : ℚ) : ℝ) := by
  refine sqrt_err (lo := (PI50 - 1 / 10 ^ 48) / 2) (hi := (PI50 + 1 / 10 ^ 48) / 2)
    (by decide +kernel) (by norm_num) ?_ ?_ (by decide +kernel) (by decide +kernel)
  · have := PI50_lo
    rw [Rat.cast_div, show ((2 : ℚ) : ℝ) = 2 by norm_num]; linarith
  · have := PI50_hi
    rw [Rat.cast_div, show ((2 : ℚ) : ℝ) = 2 by norm_num]; linarith

end Gcem
