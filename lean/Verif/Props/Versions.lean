import Verif.Model.Special
import Verif.Props.PowFloat
import Verif.Fp.Exact
import Mathlib.Algebra.BigOperators.Intervals
import Mathlib.Order.Interval.Finset.Nat

/-!
# C60: the C++11 (recursive) and C++14 (iterative) implementations agree
-/

namespace Gcem.Props
open Gcem FV
variable {f : Fmt}

/-- A `while` loop counting down computes the forward recursion. -/
theorem whileDown_eq {α : Type} (step : ℕ → α → α) (g : ℕ → α) (N : ℕ)
    (hg : ∀ k, k < N → g k = step k (g (k + 1))) (stop : ℕ) :
    ∀ k, stop ≤ k → k < N → whileDown step stop k (g (k + 1)) = g (stop + 1) := by
  intro k
  induction k with
  | zero =>
    intro h1 _
    obtain rfl : stop = 0 := by omega
    rfl
  | succ k ih =>
    intro h1 h2
    unfold whileDown
    split
    · rw [← hg (k + 1) h2]
      exact ih (by omega) (by omega)
    · obtain rfl : stop = k + 1 := by omega
      rfl

theorem exp_cf_versions (x : FV f) : exp_cf_recur x 2 = exp_cf_recur_cpp11 x 2 := by
  have h := whileDown_eq (exp_cf_step x) (exp_cf_recur_cpp11 x) EXP_MAX_ITER_SMALL
    (fun k hk => by rw [exp_cf_recur_cpp11, if_pos hk]; rfl) 1 (EXP_MAX_ITER_SMALL - 1) (by decide) (by decide)
  unfold exp_cf_recur
  rw [← h]
  congr 1
  rw [exp_cf_recur_cpp11, if_neg (by decide)]

theorem log_cf_versions (xx : FV f) : log_cf_main xx 1 = log_cf_main_cpp11 xx 1 := by
  have h := whileDown_eq (log_cf_step xx) (log_cf_main_cpp11 xx) LOG_MAX_ITER_SMALL
    (fun k hk => by rw [log_cf_main_cpp11, if_pos hk]; rfl) 0 (LOG_MAX_ITER_SMALL - 1) (by decide) (by decide)
  unfold log_cf_main
  rw [← h]
  congr 1
  rw [log_cf_main_cpp11, if_neg (by decide)]; rfl

theorem tanh_cf_versions (xx : FV f) : tanh_cf xx 1 = tanh_cf_cpp11 xx 1 := by
  have h := whileDown_eq (tanh_cf_step xx) (tanh_cf_cpp11 xx) TANH_MAX_ITER
    (fun k hk => by rw [tanh_cf_cpp11, if_pos hk]; rfl) 0 (TANH_MAX_ITER - 1) (by decide) (by decide)
  unfold tanh_cf
  rw [← h]
  congr 1
  rw [tanh_cf_cpp11, if_neg (by decide)]; rfl

theorem atan_cf_versions (xx : FV f) (N : ℕ) (hN : 1 ≤ N) :
    atan_cf_recur xx 1 N = atan_cf_recur_cpp11 xx 1 N := by
  have h := whileDown_eq (atan_cf_step xx) (fun k => atan_cf_recur_cpp11 xx k N) N
    (fun k hk => by show atan_cf_recur_cpp11 xx k N = _; rw [atan_cf_recur_cpp11, if_pos hk]; rfl)
    0 (N - 1) (by omega) (by omega)
  unfold atan_cf_recur
  beta_reduce at h
  rw [← h]
  congr 1
  rw [atan_cf_recur_cpp11, if_neg (by omega)]
  congr 1; omega

theorem erf_cf_large_versions (x : FV f) : erf_cf_large_recur x 1 = erf_cf_large_recur_cpp11 x 1 := by
  have h := whileDown_eq (erf_cf_large_step x) (erf_cf_large_recur_cpp11 x) ERF_MAX_ITER
    (fun k hk => by rw [erf_cf_large_recur_cpp11, if_pos hk]; rfl) 0 (ERF_MAX_ITER - 1) (by decide) (by decide)
  unfold erf_cf_large_recur
  rw [← h]
  congr 1
  rw [erf_cf_large_recur_cpp11, if_neg (by decide)]

theorem i_sub_one {k : ℕ} (h1 : 1 ≤ k) (h : k ≤ 60) : (i (2 * k) : FV f) - i 1 = i (2 * k - 1) := by
  rw [i_small (n := 2 * k) (by rw [abs_of_nonneg (by omega)]; omega), i_small (n := 1) (by decide), fin_sub,
    show (((2 * k : ℤ) : ℚ) - ((1:ℤ) : ℚ)) = ((2 * k - 1 : ℤ) : ℚ) by push_cast; ring,
    show mk f ((2 * k - 1 : ℤ) : ℚ) _ = mk f ((2 * k - 1 : ℤ) : ℚ) false from mk_zs (by
      exact_mod_cast (by omega : (2 * k - 1 : ℤ) ≠ 0)) _ _]
  rfl

theorem erf_cf_small_versions (xx : FV f) : erf_cf_small_recur xx 1 = erf_cf_small_recur_cpp11 xx 1 := by
  have h := whileDown_eq (fun k r => erf_cf_small_step xx k r)
    (fun k => if k = 0 then erf_cf_small_step xx 0 (erf_cf_small_recur_cpp11 xx 1)
      else erf_cf_small_recur_cpp11 xx k) ERF_MAX_ITER
    (fun k hk => by
      simp only [Nat.add_eq_zero_iff, one_ne_zero, and_false, if_false]
      split
      · subst_vars; rfl
      · rw [erf_cf_small_recur_cpp11, if_pos hk, i_sub_one (by omega) (by unfold ERF_MAX_ITER at hk; omega)]; rfl)
    0 (ERF_MAX_ITER - 1) (by decide) (by decide)
  unfold erf_cf_small_recur
  simp only [Nat.add_eq_zero_iff, one_ne_zero, and_false, if_false] at h
  rw [← h]
  congr 1
  rw [erf_cf_small_recur_cpp11, if_neg (by decide)]
  have := i_sub_one (f := f) (k := ERF_MAX_ITER) (by decide) (by decide)
  show _ = (i (2 * (ERF_MAX_ITER - 1 + 1 : ℕ)) : FV f) - i 1 - _
  rw [show ERF_MAX_ITER - 1 + 1 = ERF_MAX_ITER from rfl, this]

/-- C60: in every floating type and for every argument (NaN and infinities included) the recursive
C++11 code and the iterative C++14 code return the same bits in the kernels of `exp`, `log`, `tanh`,
the continued-fraction `atan` (every depth in its table) and both branches of `erf`. -/
theorem C60_bit_identical (x : FV f) :
    (i 1 / (i 1 - x / exp_cf_recur x 2) = i 1 / (i 1 - x / exp_cf_recur_cpp11 x 2)) ∧
    (i 2 * x / log_cf_main (x * x) 1 = i 2 * x / log_cf_main_cpp11 (x * x) 1) ∧
    (x / tanh_cf (x * x) 1 = x / tanh_cf_cpp11 (x * x) 1) ∧
    (x / atan_cf_recur (x * x) 1 (atan_cf_depth x) = x / atan_cf_recur_cpp11 (x * x) 1 (atan_cf_depth x)) ∧
    (erf_cf_large_recur (i 2 * x) 1 = erf_cf_large_recur_cpp11 (i 2 * x) 1) ∧
    (erf_cf_small_recur (x * x) 1 = erf_cf_small_recur_cpp11 (x * x) 1) := by
  refine ⟨by rw [exp_cf_versions], by rw [log_cf_versions], by rw [tanh_cf_versions], ?_,
    erf_cf_large_versions _, erf_cf_small_versions _⟩
  rw [atan_cf_versions]
  unfold atan_cf_depth
  split_ifs <;> decide

/-! ## the atan power series: equal in exact arithmetic, not bit-identical -/

theorem recurx (hf : f.exact = true) {b v : FV f} {q r : ℚ} (n : ℕ) (hb : Is b q) (hv : Is v r) :
    Is (pow_integral_compute_recur b v n) (r * q ^ n) := by
  induction n using Nat.strong_induction_on generalizing b v q r with
  | _ n ih =>
    rw [pow_integral_compute_recur]
    split
    · next h =>
      split
      · next h2 =>
        have := ih (n / 2) (by omega) (hb.mulx hf hb) (hv.mulx hf hb)
        convert this using 1
        conv_lhs => rw [show n = 2 * (n / 2) + 1 by omega, pow_add, pow_mul]
        ring
      · next h2 =>
        have := ih (n / 2) (by omega) (hb.mulx hf hb) hv
        convert this using 1
        conv_lhs => rw [show n = 2 * (n / 2) by omega, pow_mul]
        ring
    · split
      · next h2 => subst h2; simpa using hv.mulx hf hb
      · next h1 h2 => obtain rfl : n = 0 := by omega
                      simpa using hv

theorem pow_uintx (hf : f.exact = true) {b : FV f} {q : ℚ} (n : ℕ) (hn : n < 2 ^ 32 - 1) (hb : Is b q) :
    Is (pow_integral_uint b n) (q ^ n) := by
  unfold pow_integral_uint pow_integral_nonneg
  split_ifs with h3 h2 h1 h0 hh
  · subst h3; convert (hb.mulx hf hb).mulx hf hb using 1; ring
  · subst h2; convert hb.mulx hf hb using 1; ring
  · subst h1; simpa using hb
  · subst h0; simpa using is_ix hf 1
  · omega
  · have := recurx hf n hb (is_ix hf 1)
    simpa using this

/-- two consecutive terms of the series of `arctan x` at infinity -/
def atanTerm (q : ℚ) (k : ℕ) : ℚ :=
  1 / ((4 * k - 5) * q ^ (4 * k - 5)) - 1 / ((4 * k - 3) * q ^ (4 * k - 5) * (q * q))

theorem calcx (hf : f.exact = true) {xx xp : FV f} {q : ℚ} (hq : q ≠ 0) (k : ℕ) (hk : 2 ≤ k)
    (h2 : Is xx (q * q)) (hp : Is xp (q ^ (4 * k - 5))) : Is (atan_series_order_calc xx xp k) (atanTerm q k) := by
  have hk' : (2:ℚ) ≤ k := by exact_mod_cast hk
  have hqp : q ^ (4 * k - 5) ≠ 0 := pow_ne_zero _ hq
  unfold atan_series_order_calc atanTerm
  have h := ((is_ix hf 1).divx hf ((is_ix hf ((k - 1 : ℤ) * 4 - 1)).mulx hf hp) (by
      refine mul_ne_zero ?_ hqp; push_cast; intro hc; linarith)).subx hf
    ((is_ix hf 1).divx hf (((is_ix hf ((k - 1 : ℤ) * 4 + 1)).mulx hf hp).mulx hf h2) (by
      refine mul_ne_zero (mul_ne_zero ?_ hqp) (mul_ne_zero hq hq); push_cast; intro hc; linarith))
  convert h using 1
  push_cast
  congr 2 <;> ring

theorem whileDown_sum (hf : f.exact = true) (g : ℕ → FV f) (t : ℕ → ℚ) (h : ∀ k, 2 ≤ k → k ≤ 1000 → Is (g k) (t k)) :
    ∀ n, 1 ≤ n → n ≤ 1000 → ∀ r s, Is r s →
      Is (whileDown (fun k r => r + g k) 1 n r) (s + ∑ k ∈ Finset.Icc 2 n, t k) := by
  intro n
  induction n with
  | zero => intro h; omega
  | succ n ih =>
    intro _ hn r s hr
    unfold whileDown
    split
    · next h1 =>
      have := ih (by omega) (by omega) _ _ (hr.addx hf (h (n + 1) (by omega) hn))
      convert this using 1
      rw [Finset.sum_Icc_succ_top (by omega)]; ring
    · next h1 =>
      obtain rfl : n = 0 := by omega
      simpa using hr

theorem cpp11_sum (hf : f.exact = true) {xx : FV f} {q : ℚ} (hq : q ≠ 0) (h2 : Is xx (q * q)) (N : ℕ) (hN : 2 ≤ N) :
    ∀ m k, N = k + m → 2 ≤ k → ∀ xp : FV f, Is xp (q ^ (4 * k - 5)) →
      Is (atan_series_order_cpp11 xx xp k N) (∑ j ∈ Finset.Icc k N, atanTerm q j) := by
  intro m
  induction m with
  | zero =>
    intro k hk h xp hp
    obtain rfl : N = k := by omega
    rw [atan_series_order_cpp11, if_neg (by omega), if_neg (by omega), if_neg (by omega)]
    simpa using calcx hf hq N h h2 hp
  | succ m ih =>
    intro k hk h xp hp
    rw [atan_series_order_cpp11, if_neg (by omega), if_neg (by omega), if_pos (by omega)]
    have h3 := ih (k + 1) (by omega) (by omega) (xp * xx * xx) (by
      have := (hp.mulx hf h2).mulx hf h2
      convert this using 1
      rw [show 4 * (k + 1) - 5 = (4 * k - 5) + 4 by omega, pow_add]; ring)
    have := (calcx hf hq k h h2 hp).addx hf h3
    convert this using 1
    rw [← Finset.add_sum_Ioc_eq_sum_Icc (by omega)]
    congr 1
    refine Finset.sum_congr ?_ fun _ _ => rfl
    ext j; simp only [Finset.mem_Ioc, Finset.mem_Icc]; omega

/-- C60: in exact arithmetic the C++14 and the C++11 power series of `atan` have the same value for
every nonzero argument and every number of orders between 2 and 1000 (the table uses 2 to 10). -/
theorem C60_atan_series_exact (hf : f.exact = true) (q : ℚ) (hq : q ≠ 0) (z : Bool) (N : ℕ) (h2 : 2 ≤ N)
    (h : N ≤ 1000) :
    atan_series_order (fin q z : FV f) (fin q z) 1 N ≃ atan_series_order_cpp11 (fin q z : FV f) (fin q z) 1 N := by
  have hx := is_fin (f := f) q z
  have hxx := hx.mulx hf hx
  have hinv := (is_Lx (ldbl_exact hf) HALF_PI).subx (ldbl_exact hf)
    ((((is_ix hf 1).divx hf hx hq).castx (ldbl_exact hf)))
  have e1 : Is (atan_series_order (fin q z : FV f) (fin q z) 1 N)
      (atanTerm q N + ∑ k ∈ Finset.Icc 2 (N - 1), atanTerm q k + (HALF_PI - (1:ℤ) / q)) := by
    unfold atan_series_order
    rw [if_neg (by omega)]
    have hs := whileDown_sum hf
      (fun k => atan_series_order_calc (fin q z * fin q z) (pow_integral_uint (fin q z) (4 * k - 5)) k)
      (atanTerm q) (fun k hk hk2 => calcx hf hq k hk hxx (pow_uintx hf _ (by omega) hx)) (N - 1) (by omega)
      (by omega) _ _ (calcx hf hq N h2 hxx (pow_uintx hf (4 * N - 5) (by omega) hx))
    exact ((hs.castx (ldbl_exact hf)).addx (ldbl_exact hf) hinv).castx hf
  have e2 : Is (atan_series_order_cpp11 (fin q z : FV f) (fin q z) 1 N)
      ((HALF_PI - (1:ℤ) / q) + ∑ j ∈ Finset.Icc 2 N, atanTerm q j) := by
    rw [atan_series_order_cpp11, if_neg (by omega), if_pos rfl]
    have h3 := cpp11_sum hf hq hxx N h2 (N - 2) 2 (by omega) le_rfl (pow_integral_int (fin q z) 3) (by
      unfold pow_integral_int pow_integral_compute pow_integral_nonneg
      simp only [Int.reduceLT, if_false, Int.reduceToNat, if_true]
      convert (hx.mulx hf hx).mulx hf hx using 1
      norm_num; ring)
    exact (hinv.addx (ldbl_exact hf) (h3.castx (ldbl_exact hf))).castx hf
  refine e1.same ?_
  convert e2 using 1
  obtain ⟨M, rfl⟩ : ∃ M, N = M + 1 := ⟨N - 1, by omega⟩
  rw [Finset.sum_Icc_succ_top (by omega), Nat.add_sub_cancel]
  ring

/-- C60: in floating point the two power series of `atan` are not bit-identical (the powers of `x`
are computed differently): at this `float` argument, about 2.50493, they differ. -/
theorem C60_atan_series_differs :
    ∃ x : FV binary32, Valid x ∧ x > d 2.5 ∧
      atan_series_order x x 1 (atan_series_orders x) ≠ atan_series_order_cpp11 x x 1 (atan_series_orders x) :=
  ⟨d (2504941 / 1000003), by decide +kernel, by decide +kernel, by decide +kernel⟩

example : atan_series_order (fin 3 false : FV ⟨.double, true⟩) (fin 3 false) 1 9
    ≃ atan_series_order_cpp11 (fin 3 false : FV ⟨.double, true⟩) (fin 3 false) 1 9 :=
  C60_atan_series_exact rfl 3 (by norm_num) false 9 (by norm_num) (by norm_num)
example : erf_cf_small_recur (d 0.7 * d 0.7 : FV binary64) 1 = erf_cf_small_recur_cpp11 (d 0.7 * d 0.7) 1 :=
  (C60_bit_identical (d 0.7)).2.2.2.2.2

end Gcem.Props
