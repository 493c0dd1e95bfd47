import Verif.Fp.Rel
import Verif.Model.Trig
import Verif.Props.PowFloat
import Verif.Analysis.LogCf
import Mathlib.Analysis.SpecialFunctions.Trigonometric.Arctan
import Mathlib.Analysis.SpecialFunctions.Trigonometric.ArctanDeriv
import Mathlib.Analysis.Calculus.Deriv.MeanValue
import Mathlib.Algebra.Order.Field.GeomSum

/-!
# The Taylor series of the arctangent: remainder and rounding error of `atan_series_order`
-/

namespace Gcem
open FV Real
variable {f : Fmt}

/-- the Taylor polynomial of `arctan` with `n` terms -/
noncomputable def atanTay (n : ℕ) (y : ℝ) : ℝ := ∑ j ∈ Finset.range n, (-1) ^ j * y ^ (2 * j + 1) / (2 * j + 1)

theorem atanTay_deriv (n : ℕ) (y : ℝ) : HasDerivAt (atanTay n) ((1 - (-y ^ 2) ^ n) / (1 + y ^ 2)) y := by
  have h : HasDerivAt (atanTay n) (∑ j ∈ Finset.range n, (-y ^ 2) ^ j) y := by
    unfold atanTay
    refine HasDerivAt.fun_sum fun j _ => ?_
    have := (((hasDerivAt_pow (2 * j + 1) y).const_mul ((-1) ^ j)).div_const (2 * (j:ℝ) + 1))
    refine this.congr_deriv ?_
    have : (2 * (j:ℝ) + 1) ≠ 0 := by positivity
    push_cast
    rw [neg_pow (y ^ 2), pow_mul]
    field_simp
  refine h.congr_deriv ?_
  rw [geom_sum_eq (by nlinarith [sq_nonneg y])]
  have : 1 + y ^ 2 ≠ 0 := by positivity
  have : -y ^ 2 - 1 ≠ 0 := by nlinarith [sq_nonneg y]
  field_simp
  ring

/-- the partial sums lie alternately above and below -/
theorem atanTay_side (n : ℕ) {y : ℝ} (hy : 0 ≤ y) : 0 ≤ (-1) ^ n * (arctan y - atanTay n y) := by
  have h0 : (-1:ℝ) ^ n * (arctan 0 - atanTay n 0) = 0 := by simp [atanTay]
  rw [← h0]
  have hd : ∀ t, HasDerivAt (fun t => (-1:ℝ) ^ n * (arctan t - atanTay n t))
      ((-1) ^ n * (1 / (1 + t ^ 2) - (1 - (-t ^ 2) ^ n) / (1 + t ^ 2))) t := fun t =>
    ((hasDerivAt_arctan t).sub (atanTay_deriv n t)).const_mul _
  refine monotone_of_deriv_nonneg (fun t => (hd t).differentiableAt) (fun t => ?_) hy
  rw [(hd t).deriv]
  have : (-1 : ℝ) ^ n * (1 / (1 + t ^ 2) - (1 - (-t ^ 2) ^ n) / (1 + t ^ 2)) = (t ^ 2) ^ n / (1 + t ^ 2) := by
    rw [neg_pow (t ^ 2) n]
    have h1 : (-1:ℝ) ^ n * (-1) ^ n = 1 := by rw [← mul_pow]; norm_num
    rw [← sub_div, ← mul_div_assoc]
    congr 1
    linear_combination (t ^ 2) ^ n * h1
  rw [this]
  positivity

theorem atanTay_err (n : ℕ) {y : ℝ} (hy : 0 ≤ y) : |arctan y - atanTay n y| ≤ y ^ (2 * n + 1) / (2 * n + 1) := by
  have h1 := atanTay_side n hy
  have h2 := atanTay_side (n + 1) hy
  have e : atanTay (n + 1) y = atanTay n y + (-1) ^ n * y ^ (2 * n + 1) / (2 * n + 1) := by
    unfold atanTay; rw [Finset.sum_range_succ]
  rw [e, pow_succ] at h2
  have h3 : (-1:ℝ) ^ n * (-1) ^ n = 1 := by rw [← mul_pow]; norm_num
  have h4 : |arctan y - atanTay n y| = (-1) ^ n * (arctan y - atanTay n y) := by
    rw [← abs_of_nonneg h1, abs_mul, abs_pow, abs_neg, abs_one, one_pow, one_mul]
  rw [h4]
  have h5 : (-1:ℝ) ^ n * (-1) * (arctan y - (atanTay n y + (-1) ^ n * y ^ (2 * n + 1) / (2 * n + 1)))
      = y ^ (2 * n + 1) / (2 * n + 1) - (-1) ^ n * (arctan y - atanTay n y) := by
    linear_combination (y ^ (2 * n + 1) / (2 * n + 1)) * h3
  linarith

/-- the pair of terms added by `atan_series_order_calc` -/
def atanPair (q : ℚ) (k : ℕ) : ℚ := 1 / ((4 * k - 5) * q ^ (4 * k - 5)) - 1 / ((4 * k - 3) * q ^ (4 * k - 3))

/-- terms `k..k+n` -/
def atanSer (q : ℚ) : ℕ → ℕ → ℚ
  | 0, k => atanPair q k
  | n + 1, k => atanSer q n (k + 1) + atanPair q k

theorem atanPair_tay {q : ℚ} (hq : 0 < q) (m : ℕ) :
    atanTay (2 * m + 3) (1 / q : ℝ) = atanTay (2 * m + 1) (1 / q : ℝ) - ((atanPair q (m + 2) : ℚ) : ℝ) := by
  have hq' : (0:ℝ) < q := by exact_mod_cast hq
  unfold atanTay atanPair
  rw [Finset.sum_range_succ, Finset.sum_range_succ]
  have e1 : (-1 : ℝ) ^ (2 * m + 1) = -1 := by rw [pow_succ, pow_mul]; norm_num
  have e2 : (-1 : ℝ) ^ (2 * m + 1 + 1) = 1 := by rw [pow_succ, e1]; norm_num
  rw [e1, e2, show 4 * (m + 2) - 5 = 2 * (2 * m + 1) + 1 by omega, show 4 * (m + 2) - 3 = 2 * (2 * m + 1 + 1) + 1 by omega]
  push_cast
  rw [show (4 * ((m:ℝ) + 2) - 5) = 2 * (2 * m + 1) + 1 by ring, show (4 * ((m:ℝ) + 2) - 3) = 2 * (2 * m + 1 + 1) + 1 by ring,
    one_div_pow, one_div_pow]
  field_simp
  ring

theorem atanSer_tay {q : ℚ} (hq : 0 < q) (n m : ℕ) :
    ((atanSer q n (m + 2) : ℚ) : ℝ) = atanTay (2 * m + 1) (1 / q : ℝ) - atanTay (2 * (m + n) + 3) (1 / q : ℝ) := by
  induction n generalizing m with
  | zero => rw [atanSer, add_zero, atanPair_tay hq m]; ring
  | succ n ih =>
    have h1 := ih (m + 1)
    have h2 := atanPair_tay hq m
    rw [atanSer, Rat.cast_add, show m + 2 + 1 = m + 1 + 2 by ring, h1]
    rw [show 2 * (m + 1) + 1 = 2 * m + 3 by ring, show m + 1 + n = m + (n + 1) by ring]
    rw [h2]; ring

theorem atanSer_arctan {q : ℚ} (hq : 0 < q) (n : ℕ) :
    |(π / 2 - (1 / q : ℝ) + ((atanSer q n 2 : ℚ) : ℝ)) - arctan q| ≤ (1 / q : ℝ) ^ (4 * n + 7) / (4 * n + 7) := by
  have hq' : (0:ℝ) < q := by exact_mod_cast hq
  have h := atanTay_err (2 * n + 3) (y := 1 / (q:ℝ)) (by positivity)
  have h2 := atanSer_tay hq n 0
  have h3 : atanTay 1 (1 / q : ℝ) = 1 / q := by simp [atanTay]
  simp only [Nat.zero_add, Nat.mul_zero] at h2
  rw [h3] at h2
  rw [h2]
  have h4 := Real.arctan_inv_of_pos hq'
  rw [← one_div] at h4
  have e : π / 2 - 1 / (q:ℝ) + (1 / q - atanTay (2 * n + 3) (1 / q)) - arctan q = arctan (1 / q) - atanTay (2 * n + 3) (1 / (q:ℝ)) := by
    rw [h4]; ring
  rw [e]
  refine h.trans (le_of_eq ?_)
  rw [show 2 * (2 * n + 3) + 1 = 4 * n + 7 by ring]
  push_cast
  congr 1
  ring

/-! ## rounding error -/

theorem one_add_uro_pow (k : ℕ) (hk : k ≤ 40) : (1 + uro f) ^ k ≤ 1 + k * wro f := by
  have hu := uro_pos f
  have hw := wro_pos f
  have hw1 := wro_le f
  have e : wro f = 1001 / 1000 * uro f := rfl
  induction k with
  | zero => simp
  | succ k ih =>
    have ih := ih (by omega)
    have hk' : (k:ℚ) ≤ 40 := by exact_mod_cast (show k ≤ 40 by omega)
    rw [pow_succ]
    have h1 := mul_le_mul_of_nonneg_right ih (show 0 ≤ 1 + uro f by linarith)
    refine h1.trans ?_
    push_cast
    have h2 : (k:ℚ) * wro f ≤ 1 / 1000 := by nlinarith
    have h3 : (k:ℚ) * wro f * uro f ≤ 1 / 1000 * uro f := mul_le_mul_of_nonneg_right h2 hu.le
    nlinarith

theorem pow_uint_rl (hf : f.exact = false) {q : ℚ} {z : Bool} (hx : Valid (fin q z : FV f)) (hq : 1 ≤ q) {n : ℕ}
    (h1 : 1 ≤ n) (hn : n ≤ 40) (h : q ^ n ≤ 2 ^ 120) : Rl (pow_integral_uint (fin q z : FV f) n) (q ^ n) (n - 1) := by
  have hu := uro_pos f
  have hw := wro_pos f
  have hw1 := wro_le f
  have n1 : (1:ℚ) ≤ n := by exact_mod_cast h1
  have n2 : (n:ℚ) ≤ 40 := by exact_mod_cast hn
  have hq0 : 0 < q := by linarith
  have qp : 0 < q ^ n := by positivity
  obtain ⟨r, w, e1, θ, e2, e3, e4⟩ := Props.C12_finite hf 0 (2 ^ 32 - 1) q z hx (by rw [abs_of_pos hq0]; exact hq) n (by omega) (by
    rw [abs_of_pos hq0]
    have a := one_add_uro_pow (f := f) n hn
    have b : (1 + uro f) ^ n ≤ 2 := a.trans (by nlinarith)
    have c : q ^ n * (1 + uro f) ^ n ≤ 2 ^ 120 * 2 := mul_le_mul h b (by positivity) (by positivity)
    refine lt_of_le_of_lt c ?_
    have d := pow2_le (show (127:ℤ) ≤ f.emax by rcases f with ⟨⟨⟩, ⟨⟩⟩ <;> decide)
    refine lt_of_lt_of_le ?_ d
    rw [pow2_eq]; norm_num)
  have e5 : pow_integral_uint (fin q z : FV f) n = fin r w := by
    rw [← e1]
    unfold pow_integral_compute pow_integral_uint; rw [if_neg (by omega)]; simp
  refine ⟨qp, by linarith, r, ⟨w, e5⟩, ?_⟩
  rw [e2]
  have a := one_add_uro_pow (f := f) (n - 1) (by omega)
  have b := one_add_mul_le_pow (show (-2:ℚ) ≤ -uro f by linarith [uro_lt_half f]) (n - 1)
  rw [← sub_eq_add_neg] at b
  rw [Nat.cast_sub h1, Nat.cast_one] at a b
  have e : wro f = 1001 / 1000 * uro f := rfl
  have b' : 1 - ((n:ℚ) - 1) * wro f ≤ θ := by
    refine le_trans ?_ (b.trans e3)
    have : 0 ≤ ((n:ℚ) - 1) * uro f := mul_nonneg (by linarith) hu.le
    rw [e]; nlinarith
  have a' := e4.trans a
  have c : |θ - 1| ≤ (n - 1) * wro f := abs_le.2 ⟨by linarith, by linarith⟩
  have d : q ^ n * θ - q ^ n = (θ - 1) * q ^ n := by ring
  rw [d, abs_mul, abs_of_pos qp]
  exact mul_le_mul_of_nonneg_right c qp.le

theorem inv_pow_bounds {q c : ℚ} (h1 : 1 ≤ q) (n : ℕ) (hc : 1 ≤ c) (h : c * q ^ n ≤ 2 ^ 119) :
    1 / 2 ^ 119 ≤ 1 / (c * q ^ n) ∧ 1 / (c * q ^ n) ≤ 1 := by
  have : 1 ≤ q ^ n := one_le_pow₀ h1
  have p : 1 ≤ c * q ^ n := by nlinarith
  exact ⟨one_div_le_one_div_of_le (by linarith) h, by rw [div_le_one (by linarith)]; exact p⟩

/-- size of the pair -/
theorem atanPair_bounds {q : ℚ} (hq : 5 / 2 ≤ q) {k : ℕ} (hk : 2 ≤ k) :
    1 / ((4 * k - 3) * q ^ (4 * k - 3)) ≤ 16 / 100 * (1 / ((4 * k - 5) * q ^ (4 * k - 5)) : ℚ) ∧
    1 / ((4 * (k + 1 : ℕ) - 5) * q ^ (4 * (k + 1) - 5)) ≤ 26 / 1000 * (1 / ((4 * k - 5) * q ^ (4 * k - 5)) : ℚ) := by
  have k1 : (2:ℚ) ≤ k := by exact_mod_cast hk
  obtain ⟨m, rfl⟩ : ∃ m, k = m + 2 := ⟨k - 2, by omega⟩
  rw [show 4 * (m + 2) - 5 = 4 * m + 3 by omega, show 4 * (m + 2) - 3 = 4 * m + 3 + 2 by omega,
    show 4 * (m + 2 + 1) - 5 = 4 * m + 3 + 4 by omega, pow_add q (4 * m + 3), pow_add q (4 * m + 3)]
  have p : 0 < q ^ (4 * m + 3) := by positivity
  generalize q ^ (4 * m + 3) = P at p
  have m0 : (0:ℚ) ≤ m := Nat.cast_nonneg m
  push_cast
  have q2 : 25 / 4 ≤ q ^ 2 := by nlinarith
  have q4 : 625 / 16 ≤ q ^ 4 := by nlinarith
  constructor
  · rw [← mul_div_assoc, mul_one, div_le_div_iff₀ (by nlinarith [mul_pos p (show 0 < q ^ 2 by linarith)]) (by nlinarith)]
    have : (4 * ((m:ℚ) + 2) - 5) * P * (25 / 4) ≤ (4 * (m + 2) - 3) * P * q ^ 2 := by
      apply mul_le_mul _ q2 (by norm_num) (by nlinarith)
      nlinarith
    nlinarith
  · rw [← mul_div_assoc, mul_one, div_le_div_iff₀ (by nlinarith [mul_pos p (show 0 < q ^ 4 by linarith)]) (by nlinarith)]
    have : (4 * ((m:ℚ) + 2) - 5) * P * (625 / 16) ≤ (4 * (m + 2 + 1) - 5) * P * q ^ 4 := by
      apply mul_le_mul _ q4 (by norm_num) (by nlinarith)
      nlinarith
    nlinarith

theorem atan_calc_rl (hf : f.exact = false) {q : ℚ} {z : Bool} (hx : Valid (fin q z : FV f)) (hq : 5 / 2 ≤ q) {k : ℕ}
    (h1 : 2 ≤ k) (hn : k ≤ 10) (h : q ^ (4 * k - 3) ≤ 2 ^ 112) :
    Rl (atan_series_order_calc (fin q z * fin q z) (pow_integral_uint (fin q z : FV f) (4 * k - 5)) k) (atanPair q k)
      (56 / 10 * k - 26 / 10) := by
  have hq0 : 0 < q := by linarith
  have q1 : 1 ≤ q := by linarith
  have k1 : (2:ℚ) ≤ k := by exact_mod_cast h1
  have k2 : (k:ℚ) ≤ 10 := by exact_mod_cast hn
  have g1 : q ^ (4 * k - 5) ≤ q ^ (4 * k - 3) := pow_le_pow_right₀ q1 (by omega)
  have e2 : q ^ (4 * k - 3) = q ^ (4 * k - 5) * (q * q) := by rw [← sq, ← pow_add]; congr 1; omega
  have g2 : q * q ≤ 2 ^ 112 := by
    refine le_trans ?_ h
    rw [← sq]; exact pow_le_pow_right₀ q1 (by omega)
  have hp := pow_uint_rl hf hx q1 (n := 4 * k - 5) (by omega) (by omega) (g1.trans (h.trans (by norm_num)))
  have hp1 : (1:ℚ) ≤ q ^ (4 * k - 5) := one_le_pow₀ q1
  have hp3 : (1:ℚ) ≤ q ^ (4 * k - 3) := one_le_pow₀ q1
  rw [Nat.cast_sub (by omega)] at hp
  push_cast at hp
  have hxr : Rl (fin q z : FV f) q 0 := Is.rl ⟨z, rfl⟩ hq0
  have hxx : Rl (fin q z * fin q z : FV f) (q * q) 1 :=
    hxr.mul hxr (le_trans (by norm_num) (show 1 ≤ q * q by nlinarith)) (g2.trans (by norm_num)) (by norm_num) (by norm_num)
  have i1 : Rl (i (((k:ℤ) - 1) * 4 - 1) : FV f) (4 * k - 5) 0 := by
    have := is_i (f := f) (n := ((k:ℤ) - 1) * 4 - 1) (by rw [abs_le]; constructor <;> omega)
    push_cast at this
    rw [show (4 * (k:ℚ) - 5) = (k - 1) * 4 - 1 by ring]
    exact this.rl (by linarith)
  have i2 : Rl (i (((k:ℤ) - 1) * 4 + 1) : FV f) (4 * k - 3) 0 := by
    have := is_i (f := f) (n := ((k:ℤ) - 1) * 4 + 1) (by rw [abs_le]; constructor <;> omega)
    push_cast at this
    rw [show (4 * (k:ℚ) - 3) = (k - 1) * 4 + 1 by ring]
    exact this.rl (by linarith)
  have i0 : Rl (i 1 : FV f) 1 0 := by
    have := is_i (f := f) (n := 1) (by norm_num); push_cast at this; exact this.rl (by norm_num)
  have a1 := i1.mul hp (c'' := 4 * k - 5) (by nlinarith) (by
    have : (4 * (k:ℚ) - 5) * q ^ (4 * k - 5) ≤ 35 * 2 ^ 112 := mul_le_mul (by linarith) (g1.trans h) (by linarith) (by norm_num)
    exact this.trans (by norm_num)) (by linarith) (by linarith)
  have b1 := inv_pow_bounds (c := 4 * (k:ℚ) - 5) q1 (4 * k - 5) (by linarith) (by
    have : (4 * (k:ℚ) - 5) * q ^ (4 * k - 5) ≤ 35 * 2 ^ 112 := mul_le_mul (by linarith) (g1.trans h) (by linarith) (by norm_num)
    exact this.trans (by norm_num))
  have a2 := i0.div a1 (c'' := 4 * k - 39 / 10) (le_trans (by norm_num) b1.1) (b1.2.trans (by norm_num)) (by nlinarith) (by linarith)
  have a3 := i2.mul hp (c'' := 4 * k - 5) (by nlinarith) (by
    have : (4 * (k:ℚ) - 3) * q ^ (4 * k - 5) ≤ 37 * 2 ^ 112 := mul_le_mul (by linarith) (g1.trans h) (by linarith) (by norm_num)
    exact this.trans (by norm_num)) (by linarith) (by linarith)
  have c3 : (4 * (k:ℚ) - 3) * q ^ (4 * k - 5) * (q * q) = (4 * k - 3) * q ^ (4 * k - 3) := by rw [e2]; ring
  have c4 : (4 * (k:ℚ) - 3) * q ^ (4 * k - 3) ≤ 2 ^ 119 := by
    have : (4 * (k:ℚ) - 3) * q ^ (4 * k - 3) ≤ 37 * 2 ^ 112 := mul_le_mul (by linarith) h (by linarith) (by norm_num)
    exact this.trans (by norm_num)
  have a4 := a3.mul hxx (c'' := 4 * k - 29 / 10) (by rw [c3]; nlinarith) (by rw [c3]; exact c4.trans (by norm_num)) (by linarith) (by linarith)
  rw [c3] at a4
  have b2 := inv_pow_bounds (c := 4 * (k:ℚ) - 3) q1 (4 * k - 3) (by linarith) c4
  have a5 := i0.div a4 (c'' := 4 * k - 18 / 10) (le_trans (by norm_num) b2.1) (b2.2.trans (by norm_num)) (by nlinarith) (by linarith)
  have s := (atanPair_bounds hq h1).1
  unfold atan_series_order_calc atanPair
  have hC : (4 * (k:ℚ) - 39 / 10) * (1 / ((4 * k - 5) * q ^ (4 * k - 5))) + (4 * k - 18 / 10) * (1 / ((4 * k - 3) * q ^ (4 * k - 3)))
      ≤ (56 / 10 * k - 36 / 10) * (1 / ((4 * k - 5) * q ^ (4 * k - 5)) - 1 / ((4 * k - 3) * q ^ (4 * k - 3))) := by
    have b11 := b1.1
    generalize (1 / ((4 * k - 5) * q ^ (4 * k - 5)) : ℚ) = A at *
    generalize (1 / ((4 * k - 3) * q ^ (4 * k - 3)) : ℚ) = B at *
    have hA : 0 < A := lt_of_lt_of_le (by norm_num) b11
    have := mul_le_mul_of_nonneg_left s (show 0 ≤ 96 / 10 * (k:ℚ) - 54 / 10 by linarith)
    nlinarith
  refine a2.sub a5 (C := 56 / 10 * k - 36 / 10) ?_ ?_ hC (by linarith) (by linarith)
  · have b11 := b1.1
    generalize (1 / ((4 * k - 5) * q ^ (4 * k - 5)) : ℚ) = A at *
    have : (1 / 2 ^ 120 : ℚ) ≤ 84 / 100 * (1 / 2 ^ 119) := by norm_num
    linarith
  · have := b2.1
    have : (0:ℚ) ≤ 1 / 2 ^ 119 := by norm_num
    have : (1:ℚ) ≤ 2 ^ 120 := by norm_num
    linarith [b1.2]

theorem atanSer_bounds {q : ℚ} (hq : 5 / 2 ≤ q) (n : ℕ) : ∀ {k : ℕ}, 2 ≤ k →
    84 / 100 * (1 / ((4 * k - 5) * q ^ (4 * k - 5)) : ℚ) ≤ atanSer q n k ∧
    atanSer q n k ≤ 103 / 100 * (1 / ((4 * k - 5) * q ^ (4 * k - 5)) : ℚ) := by
  have pos : ∀ {k : ℕ}, 2 ≤ k → 0 < (1 / ((4 * k - 5) * q ^ (4 * k - 5)) : ℚ) ∧ 0 < (1 / ((4 * k - 3) * q ^ (4 * k - 3)) : ℚ) := by
    intro k hk
    have : (2:ℚ) ≤ k := by exact_mod_cast hk
    have h1 : 0 < 4 * (k:ℚ) - 5 := by linarith
    have h2 : 0 < 4 * (k:ℚ) - 3 := by linarith
    have : 0 < q := by linarith
    constructor <;> positivity
  induction n with
  | zero =>
    intro k hk
    have h1 := (atanPair_bounds hq hk).1
    have h2 := pos hk
    rw [atanSer, atanPair]
    constructor <;> linarith
  | succ n ih =>
    intro k hk
    have h1 := atanPair_bounds hq hk
    have h2 := pos hk
    have h3 := ih (show 2 ≤ k + 1 by omega)
    have h4 := pos (show 2 ≤ k + 1 by omega)
    rw [atanSer, atanPair]
    constructor <;> linarith

theorem atan_loop_rl (hf : f.exact = false) {q : ℚ} {z : Bool} (hx : Valid (fin q z : FV f)) (hq : 5 / 2 ≤ q) {M : ℕ}
    (h1 : 2 ≤ M) (hn : M ≤ 10) (h : q ^ (4 * M - 3) ≤ 2 ^ 112) :
    Rl (whileDown (fun depth res => res + atan_series_order_calc (fin q z * fin q z)
          (pow_integral_uint (fin q z : FV f) (4 * depth - 5)) depth) 1 (M - 1)
        (atan_series_order_calc (fin q z * fin q z) (pow_integral_uint (fin q z : FV f) (4 * M - 5)) M))
      (atanSer q (M - 2) 2) 12 := by
  have hp : ∀ k, k ≤ M → q ^ (4 * k - 3) ≤ 2 ^ 112 := fun k hk =>
    (pow_le_pow_right₀ (by linarith) (by omega)).trans h
  have := whileDown_inv (fun depth res => res + atan_series_order_calc (fin q z * fin q z)
          (pow_integral_uint (fin q z : FV f) (4 * depth - 5)) depth) 1
    (fun d v => d ≤ M - 1 ∧ Rl v (atanSer q (M - d - 1) (d + 1)) (6 * (d + 1 : ℕ))) ?_ (M - 1) _ (by omega)
    (⟨le_rfl, ?_⟩ : M - 1 ≤ M - 1 ∧ Rl (atan_series_order_calc (fin q z * fin q z) (pow_integral_uint (fin q z : FV f) (4 * M - 5)) M)
      (atanSer q (M - (M - 1) - 1) (M - 1 + 1)) (6 * (M - 1 + 1 : ℕ)))
  · have := this.2
    rw [show M - 1 - 1 = M - 2 by omega] at this
    norm_num at this
    exact this
  · rintro d r hd ⟨hd2, hr⟩
    refine ⟨by omega, ?_⟩
    have c := atan_calc_rl hf hx hq (k := d + 1) (by omega) (by omega) (hp _ (by omega))
    have e : atanSer q (M - d - 1) (d + 1) = atanSer q (M - (d + 1) - 1) (d + 1 + 1) + atanPair q (d + 1) := by
      rw [show M - d - 1 = (M - (d + 1) - 1) + 1 by omega, atanSer]
    rw [e]
    have b1 := atanSer_bounds hq (M - (d + 1) - 1) (show 2 ≤ d + 1 + 1 by omega)
    have b2 := atanPair_bounds hq (show 2 ≤ d + 1 by omega)
    have b3 : 1 / 2 ^ 119 ≤ 1 / ((4 * (d + 1 : ℕ) - 5) * q ^ (4 * (d + 1) - 5)) ∧ 1 / ((4 * (d + 1 : ℕ) - 5) * q ^ (4 * (d + 1) - 5)) ≤ (1:ℚ) := by
      have d1 : (1:ℚ) ≤ d := by exact_mod_cast hd
      have d2 : (d:ℚ) ≤ 10 := by exact_mod_cast (show d ≤ 10 by omega)
      refine inv_pow_bounds (by linarith) _ (by push_cast; linarith) ?_
      have : q ^ (4 * (d + 1) - 5) ≤ 2 ^ 112 := (pow_le_pow_right₀ (by linarith) (by omega)).trans h
      have h0 : (0:ℚ) ≤ q ^ (4 * (d + 1) - 5) := by have : 0 < q := by linarith
                                                    positivity
      have : (4 * ((d + 1 : ℕ):ℚ) - 5) * q ^ (4 * (d + 1) - 5) ≤ 39 * 2 ^ 112 :=
        mul_le_mul (by push_cast; linarith) this h0 (by norm_num)
      exact this.trans (by norm_num)
    have d1 : (1:ℚ) ≤ d := by exact_mod_cast hd
    have d2 : (d:ℚ) ≤ 10 := by exact_mod_cast (show d ≤ 10 by omega)
    have k0 : (1:ℚ) / 2 ^ 120 ≤ 84 / 100 * (1 / 2 ^ 119) := by norm_num
    have k1 : (3:ℚ) ≤ 2 ^ 120 := by norm_num
    have k2 : (0:ℚ) < 1 / 2 ^ 119 := by norm_num
    have r0 := hr.1
    unfold atanPair at c ⊢
    have B0 : (0:ℚ) ≤ 1 / ((4 * (d + 1 : ℕ) - 3) * q ^ (4 * (d + 1) - 3)) := by
      have : 0 < q := by linarith
      have : 0 < 4 * ((d + 1 : ℕ):ℚ) - 3 := by push_cast; linarith
      positivity
    generalize (1 / ((4 * (d + 1 : ℕ) - 5) * q ^ (4 * (d + 1) - 5)) : ℚ) = A at *
    generalize (1 / ((4 * (d + 1 : ℕ) - 3) * q ^ (4 * (d + 1) - 3)) : ℚ) = B at *
    generalize (1 / ((4 * (d + 1 + 1 : ℕ) - 5) * q ^ (4 * (d + 1 + 1) - 5)) : ℚ) = A' at *
    have Bp : A - B ≤ 2 := by linarith
    refine hr.add c (C := 6 * ((d:ℚ) + 1) - 1) (by linarith) (by linarith) ?_ (by push_cast; linarith) (by push_cast; linarith)
    have s1 : atanSer q (M - (d + 1) - 1) (d + 1 + 1) ≤ 4 / 100 * A := by linarith
    have s2 : 84 / 100 * A ≤ A - B := by linarith
    push_cast
    have s3 : 7 * atanSer q (M - (d + 1) - 1) (d + 1 + 1) ≤ (4 / 10 * d + 4 / 10 + 16 / 10) * (A - B) := by nlinarith
    nlinarith
  · rw [show M - (M - 1) - 1 = 0 by omega, show M - 1 + 1 = M by omega, atanSer]
    have M1 : (2:ℚ) ≤ M := by exact_mod_cast h1
    have M2 : (M:ℚ) ≤ 10 := by exact_mod_cast hn
    exact (atan_calc_rl hf hx hq h1 hn h).mono (by linarith) (by linarith)

/-! ## very large arguments -/

/-- at least `2^k`, possibly infinite -/
def Big (v : FV f) (k : ℕ) : Prop := v = inf false ∨ ∃ a, Is v a ∧ 2 ^ k ≤ a

theorem Big.mul {v w : FV f} {k l : ℕ} (hv : Big v k) (hw : Big w l) : Big (v * w) (k + l) := by
  rcases hv with rfl | ⟨a, ⟨z, rfl⟩, ha⟩
  · rcases hw with rfl | ⟨b, ⟨z', rfl⟩, hb⟩
    · left; rfl
    · left
      have : 0 < b := lt_of_lt_of_le (by positivity) hb
      change (if b = 0 then nan else inf (false ^^ sign (fin b z' : FV f))) = _
      rw [if_neg this.ne']; simp [sign, this.ne', this.le]
  · have a0 : 0 < a := lt_of_lt_of_le (by positivity) ha
    rcases hw with rfl | ⟨b, ⟨z', rfl⟩, hb⟩
    · left
      change (if a = 0 then nan else inf (sign (fin a z : FV f) ^^ false)) = _
      rw [if_neg a0.ne']; simp [sign, a0.ne', a0.le]
    · have b0 : 0 < b := lt_of_lt_of_le (by positivity) hb
      rw [fin_mul]
      by_cases ho : overflows f (rnd f (a * b)) = true
      · left
        unfold FV.mk
        simp only [ho, if_true]
        rw [decide_eq_false (by have := mul_pos a0 b0; linarith)]
      · right
        refine ⟨_, is_mk (by simpa using ho), le_rnd_of_rep rep_pow2_nat ?_⟩
        rw [pow_add]; exact mul_le_mul ha hb (by positivity) a0.le

theorem rep_inv_pow2 {k : ℕ} (hk : k ≤ 120) : Rep f (1 / 2 ^ k : ℚ) := by
  have := rep_pow2 (f := f) (e := -k) (by
    have : f.emin ≤ -120 := by rcases f with ⟨⟨⟩, ⟨⟩⟩ <;> decide
    omega)
  rw [pow2_eq] at this
  simpa using this

theorem Big.inv {v : FV f} {k : ℕ} (hv : Big v k) (hk : k ≤ 120) : ∃ a, Is (i 1 / v) a ∧ 0 ≤ a ∧ a ≤ 1 / 2 ^ k := by
  obtain ⟨z, hz⟩ := is_i (f := f) (n := 1) (by norm_num)
  rw [hz]
  rcases hv with rfl | ⟨a, ⟨z', rfl⟩, ha⟩
  · exact ⟨0, ⟨_, rfl⟩, le_rfl, by positivity⟩
  · have a0 : 0 < a := lt_of_lt_of_le (by positivity) ha
    have h1 : 1 / a ≤ 1 / 2 ^ k := one_div_le_one_div_of_le (by positivity) ha
    have h2 : 1 / a ≤ 1 := h1.trans (by rw [div_le_one (by positivity)]; exact one_le_pow₀ (by norm_num))
    have h0 : 0 < 1 / a := by positivity
    rw [fin_div a0.ne', Int.cast_one]
    refine ⟨_, is_mk (nov ?_), rnd_nonneg h0.le, rnd_le_of_rep (rep_inv_pow2 hk) h1⟩
    rw [abs_of_pos h0]; exact h2.trans (by norm_num)

/-- for `x ≥ 2^22` the correction is negligible, also when intermediate products overflow -/
theorem atan_calc_big {q : ℚ} {z : Bool} (hq : 2 ^ 22 ≤ q) :
    ∃ a, Is (atan_series_order_calc (fin q z * fin q z) (pow_integral_uint (fin q z : FV f) 3) 2) a ∧ |a| ≤ 1 / 2 ^ 67 := by
  have hx : Big (fin q z : FV f) 22 := Or.inr ⟨q, ⟨z, rfl⟩, hq⟩
  have h3 : Big (i 3 : FV f) 1 := Or.inr ⟨_, is_i (by norm_num), by norm_num⟩
  have h5 : Big (i 5 : FV f) 2 := Or.inr ⟨_, is_i (by norm_num), by norm_num⟩
  have hp : pow_integral_uint (fin q z : FV f) 3 = fin q z * fin q z * fin q z := rfl
  rw [hp]
  unfold atan_series_order_calc
  obtain ⟨a, a1, a2, a3⟩ := (h3.mul ((hx.mul hx).mul hx)).inv (by norm_num)
  obtain ⟨b, b1, b2, b3⟩ := ((h5.mul ((hx.mul hx).mul hx)).mul (hx.mul hx)).inv (by norm_num)
  norm_num only at a3 b3
  have hab : |a - b| ≤ 1 / 2 ^ 67 := by
    rw [abs_le]; norm_num only
    constructor <;> linarith
  refine ⟨_, a1.sub b1 (nov (hab.trans (by norm_num))), ?_⟩
  exact abs_rnd_le_of_rep (rep_inv_pow2 (by norm_num)) hab

end Gcem
