import Mathlib.RingTheory.Polynomial.Bernstein
import Mathlib.Analysis.Calculus.Deriv.Polynomial
import Mathlib.MeasureTheory.Integral.IntegralEqImproper
import Verif.Props.IgammaLow
import Verif.Props.IgammaTail
import Verif.Props.IbetaTop
import Verif.Props.ErfBig
import Verif.Props.Whole

/-! # C99: Poisson, binomial and normal probabilities -/

namespace Gcem.Props
open FV MeasureTheory Set

variable {f : Fmt}

/-! ## The integrals in closed form -/

theorem ds_lo_one {z : ℝ} (hz : 0 ≤ z) : (∫ t in Ioc 0 z, Real.exp (-t) * t ^ ((1:ℝ) - 1)) = 1 - Real.exp (-z) := by
  have h : (∫ t in Ioc 0 z, Real.exp (-t) * t ^ ((1:ℝ) - 1)) = ∫ t in (0:ℝ)..z, Real.exp (-t) := by
    rw [intervalIntegral.integral_of_le hz]
    refine setIntegral_congr_fun measurableSet_Ioc fun t _ => ?_
    norm_num
  rw [h, intervalIntegral.integral_comp_neg (fun t => Real.exp t), integral_exp]
  norm_num

/-- probability that a Poisson variable with mean `z` is less than `n` -/
noncomputable def poissonLt (n : ℕ) (z : ℝ) : ℝ := ∑ k ∈ Finset.range n, Real.exp (-z) * z ^ k / k.factorial

theorem ds_lo (n : ℕ) {z : ℝ} (hz : 0 < z) :
    (∫ t in Ioc 0 z, Real.exp (-t) * t ^ (((n + 1 : ℕ):ℝ) - 1)) = n.factorial * (1 - poissonLt (n + 1) z) := by
  induction n with
  | zero =>
    rw [Nat.factorial_zero, zero_add, Nat.cast_one, ds_lo_one hz.le]
    simp [poissonLt]
  | succ n ih =>
    have h := Ku.lo_rec (a := (n + 1 : ℕ)) (z := z) (by positivity) hz
    unfold Ku.lo at h
    rw [ih] at h
    have e : ((n + 1 + 1 : ℕ):ℝ) = ((n + 1 : ℕ):ℝ) + 1 := by push_cast; ring
    rw [e, poissonLt, Finset.sum_range_succ, ← poissonLt, Nat.factorial_succ]
    rw [Real.rpow_natCast] at h
    have f0 : ((n + 1).factorial : ℝ) ≠ 0 := by positivity
    have f1 : (n.factorial : ℝ) ≠ 0 := by positivity
    rw [Nat.factorial_succ] at *
    push_cast at *
    field_simp at *
    linarith

theorem ds_P {n : ℕ} (h1 : 1 ≤ n) {z : ℝ} (hz : 0 < z) :
    (∫ t in Ioc 0 z, Real.exp (-t) * t ^ ((n:ℝ) - 1)) / Real.Gamma n = 1 - poissonLt n z := by
  obtain ⟨m, rfl⟩ : ∃ m, n = m + 1 := ⟨n - 1, by omega⟩
  rw [ds_lo m hz]
  have : Real.Gamma ((m + 1 : ℕ):ℝ) = m.factorial := by push_cast; exact Real.Gamma_nat_eq_factorial m
  rw [this]
  have f1 : (m.factorial : ℝ) ≠ 0 := by positivity
  field_simp

/-- probability that a binomial variable (`n` trials, success probability `p`) is at least `k` -/
noncomputable def binomGe (n k : ℕ) (p : ℝ) : ℝ := ∑ j ∈ Finset.Icc k n, (n.choose j : ℝ) * p ^ j * (1 - p) ^ (n - j)

theorem ds_tele {M : Type*} [AddCommGroup M] (b : ℕ → M) {i n : ℕ} (h : i ≤ n) : ∑ l ∈ Finset.Ico i n, (b l - b (l + 1)) = b i - b n := by
  induction n, h using Nat.le_induction with
  | base => simp
  | succ n hn ih => rw [Finset.sum_Ico_succ_top hn, ih]; abel

theorem ds_binom_deriv (i j : ℕ) (p : ℝ) :
    HasDerivAt (binomGe (i + j + 1) (i + 1)) ((i + j + 1 : ℕ) * ((i + j).choose i : ℝ) * p ^ i * (1 - p) ^ j) p := by
  have e : binomGe (i + j + 1) (i + 1) = fun p => (∑ l ∈ Finset.Ico i (i + j + 1), bernsteinPolynomial ℝ (i + j + 1) (l + 1)).eval p := by
    funext p
    rw [Polynomial.eval_finsetSum]
    unfold binomGe
    rw [Finset.sum_Ico_add' (fun l => Polynomial.eval p (bernsteinPolynomial ℝ (i + j + 1) l)) i (i + j + 1) 1]
    refine Finset.sum_congr (by ext a; simp) fun l _ => ?_
    simp [bernsteinPolynomial]
  rw [e]
  refine (Polynomial.hasDerivAt _ p).congr_deriv ?_
  rw [Polynomial.derivative_sum]
  simp only [bernsteinPolynomial.derivative_succ, Nat.add_sub_cancel]
  rw [← Finset.mul_sum, ds_tele (fun l => bernsteinPolynomial ℝ (i + j) l) (by omega : i ≤ i + j + 1), bernsteinPolynomial.eq_zero_of_lt _ (by omega : i + j < i + j + 1), sub_zero]
  simp [bernsteinPolynomial]
  ring

theorem ds_binom (i j : ℕ) (z : ℝ) :
    (i + j + 1 : ℕ) * ((i + j).choose i : ℝ) * (∫ t in (0:ℝ)..z, t ^ (((i + 1 : ℕ):ℝ) - 1) * (1 - t) ^ (((j + 1 : ℕ):ℝ) - 1)) = binomGe (i + j + 1) (i + 1) z := by
  have h0 : binomGe (i + j + 1) (i + 1) 0 = 0 := by
    unfold binomGe
    refine Finset.sum_eq_zero fun l hl => ?_
    have : l ≠ 0 := by have := (Finset.mem_Icc.1 hl).1; omega
    simp [this]
  have h := intervalIntegral.integral_eq_sub_of_hasDerivAt (a := 0) (b := z) (f := binomGe (i + j + 1) (i + 1)) (fun t _ => ds_binom_deriv i j t)
    (Continuous.intervalIntegrable (by fun_prop) _ _)
  rw [h0, sub_zero] at h
  rw [← h, ← intervalIntegral.integral_const_mul]
  refine intervalIntegral.integral_congr fun t _ => ?_
  have e1 : ((i + 1 : ℕ):ℝ) - 1 = (i:ℝ) := by push_cast; ring
  have e2 : ((j + 1 : ℕ):ℝ) - 1 = (j:ℝ) := by push_cast; ring
  simp only [e1, e2, Real.rpow_natCast]
  ring

theorem ds_binom_one (i j : ℕ) : binomGe (i + j + 1) (i + 1) 1 = 1 := by
  unfold binomGe
  rw [Finset.sum_eq_single (i + j + 1)]
  · simp
  · intro b hb hne
    have : i + j + 1 - b ≠ 0 := by have := (Finset.mem_Icc.1 hb).2; omega
    simp [this]
  · intro h; simp at h

theorem ds_I {n k : ℕ} (h1 : 1 ≤ k) (hk : k ≤ n) (z : ℝ) :
    (∫ t in (0:ℝ)..z, t ^ ((k:ℝ) - 1) * (1 - t) ^ (((n + 1 - k : ℕ):ℝ) - 1)) / (∫ t in (0:ℝ)..1, t ^ ((k:ℝ) - 1) * (1 - t) ^ (((n + 1 - k : ℕ):ℝ) - 1)) = binomGe n k z := by
  obtain ⟨i, rfl⟩ : ∃ i, k = i + 1 := ⟨k - 1, by omega⟩
  obtain ⟨j, rfl⟩ : ∃ j, n = i + j + 1 := ⟨n - i - 1, by omega⟩
  have e : i + j + 1 + 1 - (i + 1) = j + 1 := by omega
  rw [e]
  have a := ds_binom i j z
  have b := ds_binom i j 1
  rw [ds_binom_one] at b
  generalize (∫ t in (0:ℝ)..z, t ^ (((i + 1 : ℕ):ℝ) - 1) * (1 - t) ^ (((j + 1 : ℕ):ℝ) - 1)) = A at *
  generalize (∫ t in (0:ℝ)..1, t ^ (((i + 1 : ℕ):ℝ) - 1) * (1 - t) ^ (((j + 1 : ℕ):ℝ) - 1)) = B at *
  generalize ((i + j + 1 : ℕ):ℝ) * ((i + j).choose i : ℝ) = C at *
  have B0 : B ≠ 0 := by rintro rfl; simp at b
  rw [div_eq_iff B0, ← a]
  linear_combination (-A) * b

/-- incomplete gamma function at 1/2 and the error function -/
theorem ds_half {z : ℝ} (hz : 0 ≤ z) : (∫ t in Ioc 0 z, Real.exp (-t) * t ^ ((1 / 2 : ℝ) - 1)) / Real.Gamma (1 / 2) = erfR √z := by
  have h := integral_comp_rpow_Ioi_of_pos (g := (Ioc (0:ℝ) z).indicator fun t => Real.exp (-t) * t ^ ((1 / 2 : ℝ) - 1)) (p := 2) (by norm_num)
  rw [setIntegral_indicator measurableSet_Ioc, inter_eq_right.2 Ioc_subset_Ioi_self] at h
  have e : ∀ x ∈ Ioi (0:ℝ), ((2:ℝ) * x ^ ((2:ℝ) - 1)) • (Ioc (0:ℝ) z).indicator (fun t => Real.exp (-t) * t ^ ((1 / 2 : ℝ) - 1)) (x ^ (2:ℝ)) =
      (Ioc (0:ℝ) √z).indicator (fun s => 2 * Real.exp (-s ^ 2)) x := fun x hx => by
    have x0 : 0 < x := hx
    have iff : x ^ (2:ℝ) ∈ Ioc (0:ℝ) z ↔ x ∈ Ioc (0:ℝ) √z := by
      rw [Real.rpow_two, mem_Ioc, mem_Ioc, Real.le_sqrt x0.le hz]
      exact ⟨fun h => ⟨x0, h.2⟩, fun h => ⟨by positivity, h.2⟩⟩
    by_cases hm : x ∈ Ioc (0:ℝ) √z
    · rw [indicator_of_mem hm, indicator_of_mem (iff.2 hm), ← Real.rpow_mul x0.le]
      norm_num
      have : x * x ^ (-1:ℝ) = 1 := by rw [Real.rpow_neg_one]; exact mul_inv_cancel₀ x0.ne'
      linear_combination (2 * Real.exp (-x ^ 2)) * this
    · rw [indicator_of_notMem hm, indicator_of_notMem (fun h => hm (iff.1 h))]; simp
  rw [setIntegral_congr_fun measurableSet_Ioi e, setIntegral_indicator measurableSet_Ioc, inter_eq_right.2 Ioc_subset_Ioi_self] at h
  rw [← h, integral_const_mul, Real.Gamma_one_half_eq, erfR, intervalIntegral.integral_of_le (Real.sqrt_nonneg z)]
  ring

/-! ## The probabilities -/

/-- C99: for a whole shape parameter, `incomplete_gamma(n, z)` is the probability that a Poisson variable with mean `z` is at least `n`. -/
theorem C99_poisson (hf : f.exact = false) (n : ℕ) (z : ℚ) (wz : Bool) (hz : Valid (fin z wz : FV f))
    (n1 : 1 ≤ n) (n2 : n < 10) (z0 : 1 / 2 ≤ z) (nz : z ≤ n + 10 - 1 / 2 ^ 20) :
    ∃ r w, incomplete_gamma (fin (n:ℚ) false : FV f) (fin z wz) = .ok (fin r w) ∧
      |(r:ℝ) - (1 - ∑ k ∈ Finset.range n, Real.exp (-z) * (z:ℝ) ^ k / k.factorial)| ≤
        ((330 + 70 * (n * Real.log (n + z + 6)) + 10 * z
            + 410 * (n.factorial / (z:ℝ) ^ n * (Real.exp z - ∑ k ∈ Finset.range n, (z:ℝ) ^ k / k.factorial))) / 2 ^ f.prec + 24 / 10 ^ 15) *
          (1 - ∑ k ∈ Finset.range n, Real.exp (-z) * (z:ℝ) ^ k / k.factorial) := by
  have z1 : (0:ℝ) < z := by have := (Rat.cast_le (K := ℝ)).2 z0; push_cast at this; linarith
  have hv : Valid (fin (n:ℚ) false : FV f) := by
    refine wh_valid_nat hf (le_trans n2.le ?_)
    rcases f with ⟨⟨⟩, ⟨⟩⟩ <;> first | (exact absurd hf (by decide)) | decide +kernel
  obtain ⟨r, w, e, b, -, -⟩ := C79_accuracy hf (n:ℚ) z false wz hv hz (by
    have : (1:ℚ) ≤ n := by exact_mod_cast n1
    linarith) (by exact_mod_cast n2) z0 nz
  refine ⟨r, w, e, ?_⟩
  simp only [Rat.cast_natCast] at b
  have g0 : Real.Gamma (n:ℝ) ≠ 0 := (Real.Gamma_pos_of_pos (by exact_mod_cast n1)).ne'
  have eP := ds_P n1 z1
  have el : (∫ t in Set.Ioc 0 (z:ℝ), Real.exp (-t) * t ^ ((n:ℝ) - 1)) = Real.Gamma n * (1 - poissonLt n z) := by
    rw [← eP]; field_simp
  have eg : (n:ℝ) * Real.Gamma n = n.factorial := by rw [← Real.Gamma_add_one (by positivity), Real.Gamma_nat_eq_factorial]
  have es : Real.exp z * poissonLt n z = ∑ k ∈ Finset.range n, (z:ℝ) ^ k / k.factorial := by
    unfold poissonLt
    rw [Finset.mul_sum]
    refine Finset.sum_congr rfl fun k _ => ?_
    rw [← mul_div_assoc, ← mul_assoc, ← Real.exp_add, add_neg_cancel, Real.exp_zero, one_mul]
  have eK : (n:ℝ) * Real.exp z * (z:ℝ) ^ (-(n:ℝ)) * (∫ t in Set.Ioc 0 (z:ℝ), Real.exp (-t) * t ^ ((n:ℝ) - 1)) =
      n.factorial / (z:ℝ) ^ n * (Real.exp z - ∑ k ∈ Finset.range n, (z:ℝ) ^ k / k.factorial) := by
    rw [el, ← es, ← eg, Real.rpow_neg z1.le, Real.rpow_natCast]
    field_simp
  rw [eK, eP] at b
  exact b

/-- C99: the same in the upper tail. -/
theorem C99_poisson_tail (hf : f.exact = false) (n : ℕ) (z : ℚ) (wz : Bool) (hn : Valid (fin (n:ℚ) false : FV f)) (hz : Valid (fin z wz : FV f))
    (n1 : 1 ≤ n) (nz : n + 10 ≤ z) (hor : n < 10 ∨ 301 / 100 * n ≤ z) (z2 : (z:ℝ) ≤ expMin f.ty - 1) :
    ∃ r w, incomplete_gamma (fin (n:ℚ) false : FV f) (fin z wz) = .ok (fin r w) ∧
      |(r:ℝ) - (1 - ∑ k ∈ Finset.range n, Real.exp (-z) * (z:ℝ) ^ k / k.factorial)| ≤
        (2 + (260 + 45 * n * Real.log (z + 6) + 8 * z) * ∑ k ∈ Finset.range n, Real.exp (-z) * (z:ℝ) ^ k / k.factorial) / 2 ^ f.prec
          + 19 / 10 ^ 15 * ∑ k ∈ Finset.range n, Real.exp (-z) * (z:ℝ) ^ k / k.factorial := by
  have n1q : (1:ℚ) ≤ n := by exact_mod_cast n1
  have z1 : (0:ℝ) < z := by exact_mod_cast (by linarith : (0:ℚ) < z)
  obtain ⟨r, w, e, b⟩ := C78_accuracy hf (n:ℚ) z false wz hn hz (by linarith) nz (by
    rcases hor with h | h
    · left; exact_mod_cast h
    · right; exact h) z2
  refine ⟨r, w, e, ?_⟩
  simp only [Rat.cast_natCast] at b
  rw [ds_P n1 z1, sub_sub_cancel] at b
  exact b

theorem ds_ten {p : ℚ} (p1 : 1 / 500 ≤ p) (p2 : p ≤ 1 / 2) (t1 : 1 / 10 ^ 5 < |p - 1 / 10|) (t2 : 1 / 10 ^ 6 < |p - 1 / 100|) (e : ℤ) :
    1 / 10000 * (10:ℚ) ^ e < |p - 10 ^ e| := by
  have e0 : (0:ℚ) < 10 ^ e := by positivity
  rcases lt_or_ge e (-2) with h | h
  · have h3 : (10:ℚ) ^ e ≤ 10 ^ (-3:ℤ) := zpow_le_zpow_right₀ (by norm_num) (by omega)
    norm_num at h3
    refine lt_of_lt_of_le ?_ (le_abs_self _)
    norm_num at p1 ⊢
    linarith
  · rcases le_or_gt 0 e with h0 | h0
    · have h3 : (1:ℚ) ≤ 10 ^ e := one_le_zpow₀ (by norm_num) h0
      rw [abs_sub_comm]
      refine lt_of_lt_of_le ?_ (le_abs_self _)
      linarith
    · have : e = -2 ∨ e = -1 := by omega
      rcases this with rfl | rfl
      · refine lt_of_le_of_lt ?_ (show 1 / 10 ^ 6 < |p - 10 ^ (-2:ℤ)| by norm_num at t2 ⊢; exact t2)
        norm_num
      · refine lt_of_le_of_lt ?_ (show 1 / 10 ^ 5 < |p - 10 ^ (-1:ℤ)| by norm_num at t1 ⊢; exact t1)
        norm_num

theorem ds_log {p : ℝ} (p1 : 1 / 500 ≤ p) : -(63 / 10) ≤ Real.log p := by
  have h : Real.log (1 / 512) ≤ Real.log p := Real.log_le_log (by norm_num) (by linarith)
  have e : Real.log (1 / 512) = -(9 * Real.log 2) := by
    rw [one_div, Real.log_inv, show (512:ℝ) = 2 ^ 9 by norm_num, Real.log_pow]; norm_num
  have := Real.log_two_lt_d9
  linarith

theorem ds_log_half {p : ℝ} (p1 : 1 / 2 ≤ p) : -(7 / 10) ≤ Real.log p := by
  have h : Real.log (1 / 2) ≤ Real.log p := Real.log_le_log (by norm_num) (by linarith)
  have e : Real.log (1 / 2) = -Real.log 2 := by rw [one_div, Real.log_inv]
  have := Real.log_two_lt_d9
  linarith

/-- C99: with whole parameters, `incomplete_beta(k, n+1-k, p)` is the probability of at least `k` successes in `n` trials. -/
theorem C99_binomial (hf : f.exact = false) (n k : ℕ) (p : ℚ) (wp : Bool) (hp : Valid (fin p wp : FV f))
    (k1 : 1 ≤ k) (hk : k ≤ n) (k10 : k ≤ 10) (m10 : n + 1 - k ≤ 10) (p1 : 1 / 500 ≤ p) (p2 : p ≤ 499 / 500)
    (t1 : 1 / 10 ^ 5 < |p - 1 / 10|) (t2 : 1 / 10 ^ 6 < |p - 1 / 100|) (t3 : 1 / 10 ^ 5 < |1 - p - 1 / 10|) (t4 : 1 / 10 ^ 6 < |1 - p - 1 / 100|) :
    ∃ r w, incomplete_beta (fin (k:ℚ) false : FV f) (fin ((n + 1 - k : ℕ):ℚ) false) (fin p wp) = .ok (fin r w) ∧
      |(r:ℝ) - ∑ j ∈ Finset.Icc k n, (n.choose j : ℝ) * (p:ℝ) ^ j * (1 - p) ^ (n - j)| ≤ 17000 / 2 ^ f.prec + 3 / 10 ^ 13 := by
  have hten : 10 ≤ 2 ^ f.prec := by
    rcases f with ⟨⟨⟩, ⟨⟩⟩ <;> first | (exact absurd hf (by decide)) | decide +kernel
  have hE : (86:ℝ) ≤ expMin f.ty := by
    have : (86:ℚ) ≤ expMin f.ty := by rcases f with ⟨⟨⟩, ⟨⟩⟩ <;> decide +kernel
    exact_mod_cast this
  have q1 : (1 / 500 : ℝ) ≤ p := by have := (Rat.cast_le (K := ℝ)).2 p1; push_cast at this; exact this
  have q2 : (p:ℝ) ≤ 499 / 500 := by have := (Rat.cast_le (K := ℝ)).2 p2; push_cast at this; exact this
  have k1' : (1:ℚ) ≤ k := by exact_mod_cast k1
  have k10' : (k:ℚ) ≤ 10 := by exact_mod_cast k10
  have m1' : (1:ℚ) ≤ ((n + 1 - k : ℕ):ℚ) := by exact_mod_cast (by omega : 1 ≤ n + 1 - k)
  have m10' : ((n + 1 - k : ℕ):ℚ) ≤ 10 := by exact_mod_cast m10
  have L1 := ds_log q1
  have L2 := ds_log (p := 1 - p) (by linarith)
  have L3 : Real.log p ≤ 0 := Real.log_nonpos (by linarith) (by linarith)
  have L4 : Real.log (1 - p) ≤ 0 := Real.log_nonpos (by linarith) (by linarith)
  have K0 : (0:ℝ) ≤ k := by positivity
  have M0 : (0:ℝ) ≤ ((n + 1 - k : ℕ):ℝ) := by positivity
  have K10 : (k:ℝ) ≤ 10 := by exact_mod_cast k10
  have M10 : ((n + 1 - k : ℕ):ℝ) ≤ 10 := by exact_mod_cast m10
  obtain ⟨r, w, e, b⟩ := C81_accuracy hf (wa := false) (wb := false) (wh_valid_nat hf (le_trans k10 hten)) (wh_valid_nat hf (le_trans m10 hten)) hp
    (by linarith) k10' (by linarith) m10' (le_trans (by norm_num) p1) (by linarith)
    (fun h => ds_ten p1 h.le t1 t2) (fun h => ds_ten (by linarith) (by linarith) t3 t4)
    (by rw [Rat.cast_natCast]; nlinarith) (by rw [Rat.cast_natCast]; nlinarith)
  refine ⟨r, w, e, ?_⟩
  simp only [Rat.cast_natCast] at b
  rw [ds_I k1 hk] at b
  change |(r:ℝ) - binomGe n k p| ≤ _
  refine b.trans ?_
  rw [abs_of_nonpos L3, abs_of_nonpos L4]
  generalize ((n + 1 - k : ℕ):ℝ) = m at *
  have key : (k:ℝ) * -Real.log p + m * -Real.log (1 - p) ≤ 70 := by
    rcases le_total (1 / 2) (p:ℝ) with h | h
    · have := ds_log_half h
      nlinarith
    · have := ds_log_half (p := 1 - p) (by linarith)
      nlinarith
  gcongr
  linarith

/-- C99: `incomplete_gamma(0.5, z)` is the probability that the square of a normal variable with variance 1/2 is at most `z`. -/
theorem C99_chi_square_one (hf : f.exact = false) (z : ℚ) (wz : Bool) (hz : Valid (fin z wz : FV f)) (z0 : 1 / 2 ≤ z) (nz : z ≤ 10) :
    ∃ r w, incomplete_gamma (fin (1 / 2) false : FV f) (fin z wz) = .ok (fin r w) ∧
      |(r:ℝ) - 2 / √Real.pi * ∫ t in (0:ℝ)..√z, Real.exp (-t ^ 2)| ≤ (580 + 205 * √(Real.pi / z) * Real.exp z) / 2 ^ f.prec + 24 / 10 ^ 15 := by
  have q0 : (1 / 2 : ℝ) ≤ z := by have := (Rat.cast_le (K := ℝ)).2 z0; push_cast at this; exact this
  have q1 : (z:ℝ) ≤ 10 := by exact_mod_cast nz
  have hv : Valid (fin (1 / 2) false : FV f) := by
    have := wh_valid_half (f := f) hf (m := 0) (by positivity)
    simpa using this
  obtain ⟨r, w, e, b, -, -⟩ := C79_accuracy hf (1 / 2) z false wz hv hz le_rfl (by norm_num) z0 (by linarith)
  refine ⟨r, w, e, ?_⟩
  have e2 : (((1 / 2 : ℚ)):ℝ) = 1 / 2 := by norm_num
  rw [e2] at b
  have h := ds_half (z := z) (by linarith)
  have hG : Real.Gamma (1 / 2 : ℝ) = √Real.pi := Real.Gamma_one_half_eq
  have g0 : 0 < √Real.pi := Real.sqrt_pos.2 Real.pi_pos
  have hl : (∫ t in Set.Ioc 0 (z:ℝ), Real.exp (-t) * t ^ ((1 / 2 : ℝ) - 1)) = √Real.pi * erfR √z := by
    rw [← h, hG]; field_simp
  rw [h, hl] at b
  have E1 : erfR √z ≤ 1 := (erfR_lt_one _).le
  have E0 : 0 ≤ erfR √z := by
    have := erfR_lt (x := 0) (y := √z) (Real.sqrt_pos.2 (by linarith))
    rw [show erfR 0 = 0 by simp [erfR]] at this
    exact this.le
  change |(r:ℝ) - erfR √z| ≤ _
  refine b.trans ?_
  have hlog : Real.log (1 / 2 + z + 6) ≤ 3 := by
    rw [Real.log_le_iff_le_exp (by linarith)]
    have h1 := Real.exp_one_gt_d9
    have : Real.exp 3 = Real.exp 1 ^ 3 := by rw [← Real.exp_nat_mul]; norm_num
    rw [this]
    have h2 : (2.7:ℝ) ^ 3 ≤ Real.exp 1 ^ 3 := by gcongr; linarith
    norm_num at h2 ⊢
    linarith
  have hr : (1 / 2 : ℝ) * Real.exp z * (z:ℝ) ^ (-(1 / 2 : ℝ)) * (√Real.pi * erfR √z) ≤ 1 / 2 * (√(Real.pi / z) * Real.exp z) := by
    rw [Real.rpow_neg (by linarith), ← Real.sqrt_eq_rpow, Real.sqrt_div Real.pi_pos.le, show √Real.pi / √(z:ℝ) = √Real.pi * (√(z:ℝ))⁻¹ from div_eq_mul_inv _ _]
    have p0 : 0 ≤ (1 / 2 : ℝ) * Real.exp z * (√z)⁻¹ * √Real.pi := by positivity
    have := mul_le_mul_of_nonneg_left E1 p0
    linarith
  have h2 : (0:ℝ) < 2 ^ f.prec := by positivity
  refine le_trans (mul_le_of_le_one_right ?_ E1) ?_
  · have l0 : 0 ≤ Real.log (1 / 2 + z + 6) := Real.log_nonneg (by linarith)
    have : 0 ≤ (1 / 2 : ℝ) * Real.exp z * (z:ℝ) ^ (-(1 / 2 : ℝ)) * (√Real.pi * erfR √z) := by
      have : (0:ℝ) < (z:ℝ) ^ (-(1 / 2 : ℝ)) := Real.rpow_pos_of_pos (by linarith) _
      positivity
    have : (0:ℝ) ≤ z := by linarith
    positivity
  · refine add_le_add (div_le_div_of_nonneg_right ?_ h2.le) le_rfl
    linarith

/-! ## Examples -/

/-- events at rate 2.5: the probability of at least three is `1 - e^(-2.5) (1 + 2.5 + 3.125)` -/
example : ∃ r w, incomplete_gamma (fin 3 false : FV binary64) (fin (5 / 2) false) = .ok (fin r w) ∧
    |(r:ℝ) - (1 - Real.exp (-(5 / 2)) * (53 / 8))| ≤ 1 / 10 ^ 11 := by
  obtain ⟨r, w, e, b⟩ := C99_poisson (f := binary64) rfl 3 (5 / 2) false (by constructor <;> decide +kernel) (by norm_num) (by norm_num) (by norm_num) (by norm_num)
  refine ⟨r, w, e, ?_⟩
  simp only [Finset.sum_range_succ, Finset.sum_range_zero, show binary64.prec = 53 from rfl] at b
  have e1 : Real.exp (-(5 / 2 : ℝ)) = 1 / Real.exp (5 / 2) := by rw [Real.exp_neg, one_div]
  have h1 : 53 / 8 ≤ Real.exp (5 / 2) := by
    have := Real.quadratic_le_exp_of_nonneg (x := 5 / 2) (by norm_num); norm_num at this ⊢; linarith
  have h2 : Real.exp (5 / 2) ≤ 21 := by
    have h1 := Real.exp_one_lt_d9
    have h3 : Real.exp 3 = Real.exp 1 ^ 3 := by rw [← Real.exp_nat_mul]; norm_num
    have h4 : Real.exp (5 / 2) ≤ Real.exp 3 := Real.exp_le_exp.2 (by norm_num)
    have h5 : Real.exp 1 ^ 3 ≤ (2.7182818286:ℝ) ^ 3 := by gcongr
    norm_num at h5
    linarith
  have h3 : Real.log (23 / 2) ≤ 21 / 2 := by
    have := Real.log_le_sub_one_of_pos (x := 23 / 2) (by norm_num); linarith
  norm_num [Nat.factorial] at b
  have e2 : (1:ℝ) - (Real.exp (-(5 / 2)) + Real.exp (-(5 / 2)) * (5 / 2) + Real.exp (-(5 / 2)) * (25 / 4) / 2) = 1 - Real.exp (-(5 / 2)) * (53 / 8) := by ring
  rw [e2] at b
  refine b.trans ?_
  have h0 : 0 ≤ 1 - Real.exp (-(5 / 2)) * (53 / 8) := by
    rw [e1, sub_nonneg, one_div, inv_mul_le_iff₀ (Real.exp_pos _)]; linarith
  have h4 : 1 - Real.exp (-(5 / 2)) * (53 / 8) ≤ 1 := by
    have := Real.exp_pos (-(5 / 2)); linarith
  refine le_trans (mul_le_mul_of_nonneg_right (?_ : _ ≤ (1 / 10 ^ 11 : ℝ)) h0) ?_
  · norm_num; linarith
  · norm_num at h4 ⊢; linarith

/-- events at rate 30: probability of at least two -/
example : ∃ r w, incomplete_gamma (fin 2 false : FV binary64) (fin 30 false) = .ok (fin r w) ∧
    |(r:ℝ) - (1 - 31 * Real.exp (-30))| ≤ 1 / 10 ^ 15 := by
  obtain ⟨r, w, e, b⟩ := C99_poisson_tail (f := binary64) rfl 2 30 false (by constructor <;> decide +kernel) (by constructor <;> decide +kernel) (by norm_num) (by norm_num) (by norm_num)
    (by have := expMin_ge binary64.ty; push_cast; linarith)
  refine ⟨r, w, e, ?_⟩
  simp only [Finset.sum_range_succ, Finset.sum_range_zero, show binary64.prec = 53 from rfl] at b
  norm_num [Nat.factorial] at b
  have e1 : Real.exp (-30) + Real.exp (-30) * 30 = 31 * Real.exp (-30) := by ring
  rw [e1] at b
  refine b.trans ?_
  have h1 : Real.exp (-30) ≤ 1 / 10 ^ 10 := by
    have h1 := Real.exp_one_gt_d9
    have h3 : Real.exp 30 = Real.exp 1 ^ 30 := by rw [← Real.exp_nat_mul]; norm_num
    have h4 : (2.7:ℝ) ^ 30 ≤ Real.exp 1 ^ 30 := by gcongr; linarith
    rw [Real.exp_neg, one_div]
    refine inv_anti₀ (by positivity) ?_
    rw [h3]
    refine le_trans ?_ h4
    norm_num
  have h2 : Real.log 36 ≤ 35 := by
    have := Real.log_le_sub_one_of_pos (x := 36) (by norm_num); linarith
  have h3 := Real.exp_pos (-30)
  have h5 : Real.log 36 * Real.exp (-30) ≤ 35 * Real.exp (-30) := by gcongr
  norm_num at h1 ⊢
  linarith

/-- at least 4 successes in 10 trials of probability 1/4 -/
example : ∃ r w, incomplete_beta (fin 4 false : FV binary64) (fin 7 false) (fin (1 / 4) false) = .ok (fin r w) ∧
    |(r:ℝ) - 235012 / 4 ^ 10| ≤ 1 / 10 ^ 11 := by
  obtain ⟨r, w, e, b⟩ := C99_binomial (f := binary64) rfl 10 4 (1 / 4) false (by constructor <;> decide +kernel) (by norm_num) (by norm_num) (by norm_num) (by norm_num) (by norm_num) (by norm_num)
    (by norm_num [abs_of_pos]) (by norm_num [abs_of_pos]) (by norm_num [abs_of_pos]) (by norm_num [abs_of_pos])
  refine ⟨r, w, e, ?_⟩
  have h : ∑ j ∈ Finset.Icc 4 10, (Nat.choose 10 j : ℝ) * (((1 / 4 : ℚ)):ℝ) ^ j * (1 - ((1 / 4 : ℚ):ℝ)) ^ (10 - j) = 235012 / 4 ^ 10 := by
    rw [show Finset.Icc 4 10 = {4, 5, 6, 7, 8, 9, 10} by decide]
    norm_num [Nat.choose]
  rw [h, show binary64.prec = 53 from rfl] at b
  refine b.trans ?_
  norm_num

/-- the square of a normal variable of variance 1/2 is at most 2 -/
example : ∃ r w, incomplete_gamma (fin (1 / 2) false : FV binary64) (fin 2 false) = .ok (fin r w) ∧
    |(r:ℝ) - erfR √2| ≤ (580 + 205 * √(Real.pi / 2) * Real.exp 2) / 2 ^ 53 + 24 / 10 ^ 15 := by
  obtain ⟨r, w, e, b⟩ := C99_chi_square_one (f := binary64) rfl 2 false (by constructor <;> decide +kernel) (by norm_num) (by norm_num)
  rw [show binary64.prec = 53 from rfl] at b
  exact ⟨r, w, e, by simpa [erfR] using b⟩

end Gcem.Props
