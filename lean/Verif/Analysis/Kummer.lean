import Verif.Analysis.UpperGamma
import Mathlib.Topology.Algebra.InfiniteSum.Order
import Mathlib.Analysis.SpecialFunctions.Integrals.Basic

/-!
# The continued fraction of the lower incomplete gamma function

`ku k b z` is the confluent hypergeometric function `M(k, b, z)`, given by its power series.
`KT a z d` are the exact tails of the continued fraction used by `incomplete_gamma` for small arguments;
`KT a z 1 = z^a e^(-z) / ∫₀ᶻ t^(a-1) e^(-t) dt`.
-/

namespace Gcem.Ku
open Real Set Filter Topology MeasureTheory

/-- coefficients of `M(k, b, z)` -/
noncomputable def kuC (k b : ℝ) : ℕ → ℝ
  | 0 => 1
  | n + 1 => kuC k b n * ((k + n) / ((b + n) * (n + 1)))

variable {k b z : ℝ}

theorem kuC_nonneg (hk : 0 ≤ k) (hb : 0 < b) (n : ℕ) : 0 ≤ kuC k b n := by
  induction n with
  | zero => simp [kuC]
  | succ n ih => rw [kuC]; positivity

theorem kuC_le (hk : 0 ≤ k) (hkb : k ≤ b) (hb : 0 < b) (n : ℕ) : kuC k b n ≤ 1 / (n.factorial : ℝ) := by
  induction n with
  | zero => simp [kuC]
  | succ n ih =>
    rw [kuC, Nat.factorial_succ]
    have h1 : (k + n) / ((b + n) * (n + 1)) ≤ 1 / ((n:ℝ) + 1) := by
      rw [div_le_div_iff₀ (by positivity) (by positivity)]
      have : (0:ℝ) ≤ n := Nat.cast_nonneg n
      nlinarith
    refine (mul_le_mul ih h1 (by positivity) (by positivity)).trans (le_of_eq ?_)
    push_cast; field_simp

theorem kuC_summable (hk : 0 ≤ k) (hkb : k ≤ b) (hb : 0 < b) (hz : 0 ≤ z) : Summable fun n => kuC k b n * z ^ n := by
  refine Summable.of_nonneg_of_le (fun n => mul_nonneg (kuC_nonneg hk hb n) (pow_nonneg hz n)) (fun n => ?_)
    (Real.summable_pow_div_factorial z)
  calc kuC k b n * z ^ n ≤ 1 / (n.factorial : ℝ) * z ^ n := mul_le_mul_of_nonneg_right (kuC_le hk hkb hb n) (pow_nonneg hz n)
    _ = _ := by ring

/-- `M(k, b, z)` -/
noncomputable def ku (k b z : ℝ) : ℝ := ∑' n, kuC k b n * z ^ n

theorem ku_ge_one (hk : 0 ≤ k) (hkb : k ≤ b) (hb : 0 < b) (hz : 0 ≤ z) : 1 ≤ ku k b z := by
  have := (kuC_summable hk hkb hb hz).le_tsum 0 (fun n _ => mul_nonneg (kuC_nonneg hk hb n) (pow_nonneg hz n))
  simpa [kuC, ku] using this

theorem ku_zero (b z : ℝ) : ku 0 b z = 1 := by
  have h : ∀ n, kuC 0 b (n + 1) = 0 := by
    intro n
    induction n with
    | zero => simp [kuC]
    | succ n ih => rw [kuC, ih, zero_mul]
  unfold ku
  rw [tsum_eq_single 0]
  · simp [kuC]
  · intro n hn
    obtain ⟨m, rfl⟩ := Nat.exists_eq_succ_of_ne_zero hn
    rw [Nat.succ_eq_add_one, h, zero_mul]

theorem kuC_shift (hb : 0 < b) (n : ℕ) : kuC k b (n + 1) = k / (b * (n + 1)) * kuC (k + 1) (b + 1) n := by
  induction n with
  | zero => simp [kuC]
  | succ n ih =>
    rw [kuC, ih, kuC]
    push_cast
    field_simp
    ring

theorem kuC_b (hb : 0 < b) (n : ℕ) : kuC k b n = kuC k (b + 1) n * ((b + n) / b) := by
  induction n with
  | zero => simp [kuC, hb.ne']
  | succ n ih =>
    rw [kuC, kuC, ih]
    push_cast
    field_simp
    ring

theorem kuC_k (hk : 0 < k) (n : ℕ) : kuC (k + 1) b n = kuC k b n * ((k + n) / k) := by
  induction n with
  | zero => simp [kuC, hk.ne']
  | succ n ih =>
    rw [kuC, kuC, ih]
    push_cast
    field_simp
    ring

/-- a relation between coefficients gives one between the series -/
theorem series_rel {c e g : ℕ → ℝ} {α β γ : ℝ} (hc : Summable fun n => c n * z ^ n) (he : Summable fun n => e n * z ^ n)
    (hg : Summable fun n => g n * z ^ n) (h0 : α * c 0 = β * e 0) (h : ∀ n, α * c (n + 1) = β * e (n + 1) + γ * g n) :
    α * ∑' n, c n * z ^ n = β * ∑' n, e n * z ^ n + γ * z * ∑' n, g n * z ^ n := by
  rw [hc.tsum_eq_zero_add, he.tsum_eq_zero_add, mul_add, mul_add, ← tsum_mul_left, ← tsum_mul_left, ← tsum_mul_left, pow_zero, mul_one, mul_one, h0,
    add_assoc, ← (((summable_nat_add_iff 1).2 he).mul_left β).tsum_add (hg.mul_left (γ * z))]
  congr 1
  refine tsum_congr fun n => ?_
  rw [pow_succ]
  linear_combination (z ^ n * z) * h n

theorem ku_odd (hk : 0 ≤ k) (hkb : k ≤ b) (hb : 0 < b) (hz : 0 ≤ z) :
    b * ku k b z = b * ku (k + 1) (b + 1) z + -((b - k) / (b + 1)) * z * ku (k + 1) (b + 2) z := by
  unfold ku
  refine series_rel (kuC_summable hk hkb hb hz) (kuC_summable (by linarith) (by linarith) (by linarith) hz)
    (kuC_summable (by linarith) (by linarith) (by linarith) hz) (by simp [kuC]) fun n => ?_
  rw [kuC_shift hb, kuC, kuC_b (k := k + 1) (b := b + 1) (by linarith) n, show b + 1 + 1 = b + 2 by ring]
  have : (0:ℝ) ≤ n := Nat.cast_nonneg n
  have h1 : b + 1 + n ≠ 0 := by positivity
  field_simp
  ring

theorem ku_even (hk : 0 ≤ k) (hkb : k ≤ b) (hb : 0 < b) (hz : 0 ≤ z) :
    b * ku k b z = b * ku k (b + 1) z + k / (b + 1) * z * ku (k + 1) (b + 2) z := by
  unfold ku
  refine series_rel (kuC_summable hk hkb hb hz) (kuC_summable (by linarith) (by linarith) (by linarith) hz)
    (kuC_summable (by linarith) (by linarith) (by linarith) hz) (by simp [kuC]) fun n => ?_
  rw [kuC_shift hb, kuC_shift (b := b + 1) (by linarith), kuC_b (k := k + 1) (b := b + 1) (by linarith) n, show b + 1 + 1 = b + 2 by ring]
  have : (0:ℝ) ≤ n := Nat.cast_nonneg n
  field_simp
  ring

theorem ku_ratio (hk : 0 < k) (hkb : k ≤ b) (hz : 0 ≤ z) :
    k * (4 * (b - k) + 1) * ku (k + 1) (b + 2) z ≤ b * (b + 1) * ku k b z := by
  have hb : 0 < b := by linarith
  unfold ku
  rw [← tsum_mul_left, ← tsum_mul_left]
  refine Summable.tsum_le_tsum (fun n => ?_) ((kuC_summable (by linarith) (by linarith) (by linarith) hz).mul_left _)
    ((kuC_summable hk.le hkb hb hz).mul_left _)
  rw [← mul_assoc, ← mul_assoc]
  refine mul_le_mul_of_nonneg_right ?_ (pow_nonneg hz n)
  rw [kuC_b hb n, kuC_b (b := b + 1) (by linarith) n, kuC_k hk, show b + 1 + 1 = b + 2 by ring]
  have h0 := kuC_nonneg hk.le (show 0 < b + 2 by linarith) n
  generalize kuC k (b + 2) n = X at *
  have hn : (0:ℝ) ≤ n := Nat.cast_nonneg n
  have e1 : k * (4 * (b - k) + 1) * (X * ((k + n) / k)) = X * ((4 * (b - k) + 1) * (k + n)) := by field_simp
  have e2 : b * (b + 1) * (X * ((b + 1 + n) / (b + 1)) * ((b + n) / b)) = X * ((b + 1 + n) * (b + n)) := by field_simp
  rw [e1, e2]
  refine mul_le_mul_of_nonneg_left ?_ h0
  nlinarith [sq_nonneg ((k + n) - (b - k))]

/-! ## Tails -/

/-- the functions whose quotients are the tails -/
noncomputable def N (a z : ℝ) (d : ℕ) : ℝ := ku ((d + 1) / 2 : ℕ) (a + d) z

/-- partial numerators of the continued fraction -/
noncomputable def cf (a z : ℝ) (d : ℕ) : ℝ := if d % 2 = 1 then -((a - 1 + (d + 1) / 2) * z) else d / 2 * z

/-- the exact tails -/
noncomputable def KT (a z : ℝ) (d : ℕ) : ℝ := (a + d - 1) * N a z (d - 1) / N a z d

variable {a : ℝ}

theorem half_le (d : ℕ) : (((d + 1) / 2 : ℕ) : ℝ) ≤ d := by exact_mod_cast (by omega)

theorem N_pos (ha : 0 < a) (hz : 0 ≤ z) (d : ℕ) : 0 < N a z d := by
  have h := half_le d
  have hd : (0:ℝ) ≤ d := Nat.cast_nonneg d
  have := ku_ge_one (k := ((d + 1) / 2 : ℕ)) (b := a + d) (z := z) (by positivity) (by linarith) (by linarith) hz
  unfold N; linarith

theorem KT_pos (ha : 0 < a) (hz : 0 ≤ z) {d : ℕ} (hd : 1 ≤ d) : 0 < KT a z d := by
  have : (1:ℝ) ≤ d := by exact_mod_cast hd
  exact div_pos (mul_pos (by linarith) (N_pos ha hz _)) (N_pos ha hz _)

theorem N_two (a z : ℝ) (m : ℕ) : N a z (2 * m) = ku m (a + 2 * m) z := by
  unfold N; rw [show (2 * m + 1) / 2 = m by omega]; push_cast; rfl

theorem N_two_one (a z : ℝ) (m : ℕ) : N a z (2 * m + 1) = ku (m + 1) (a + 2 * m + 1) z := by
  unfold N; rw [show (2 * m + 1 + 1) / 2 = m + 1 by omega]; push_cast; rw [add_assoc]

/-- the three term relation -/
theorem N_rec (ha : 0 < a) (hz : 0 ≤ z) (d : ℕ) :
    (a + d) * (a + d + 1) * N a z d = (a + d) * (a + d + 1) * N a z (d + 1) + cf a z (d + 1) * N a z (d + 2) := by
  rcases Nat.even_or_odd' d with ⟨m, rfl | rfl⟩
  · have hm : (0:ℝ) ≤ m := Nat.cast_nonneg m
    have h := ku_odd (k := m) (b := a + 2 * m) hm (by linarith) (by linarith) hz
    rw [show 2 * m + 2 = 2 * (m + 1) by ring, N_two, N_two_one, N_two]
    unfold cf
    rw [if_pos (by omega)]
    push_cast
    rw [show a + 2 * ((m:ℝ) + 1) = a + 2 * m + 2 by ring]
    have hb : a + 2 * (m:ℝ) + 1 ≠ 0 := by positivity
    have h' := congrArg (fun x => (a + 2 * m + 1) * x) h
    field_simp at h'
    linear_combination h'
  · have hm : (0:ℝ) ≤ m := Nat.cast_nonneg m
    have h := ku_even (k := m + 1) (b := a + 2 * m + 1) (by linarith) (by linarith) (by linarith) hz
    rw [show 2 * m + 1 + 1 = 2 * (m + 1) by ring, show 2 * m + 1 + 2 = 2 * (m + 1) + 1 by ring, N_two, N_two_one, N_two_one]
    unfold cf
    rw [if_neg (by omega)]
    push_cast
    rw [show a + 2 * ((m:ℝ) + 1) = a + 2 * m + 1 + 1 by ring, show a + 2 * (m:ℝ) + 1 + 1 + 1 = a + 2 * m + 1 + 2 by ring]
    have hb : a + 2 * (m:ℝ) + 1 + 1 ≠ 0 := by positivity
    have h' := congrArg (fun x => (a + 2 * m + 1 + 1) * x) h
    field_simp at h'
    linear_combination h'

theorem KT_rec (ha : 0 < a) (hz : 0 ≤ z) {d : ℕ} (hd : 1 ≤ d) : KT a z d = (a + d - 1) + cf a z d / KT a z (d + 1) := by
  obtain ⟨d, rfl⟩ : ∃ e, d = e + 1 := ⟨d - 1, by omega⟩
  have h := N_rec ha hz d
  have h0 := N_pos ha hz d
  have h1 := N_pos ha hz (d + 1)
  have h2 := N_pos ha hz (d + 2)
  have hd : (0:ℝ) ≤ d := Nat.cast_nonneg d
  unfold KT
  rw [show d + 1 - 1 = d from rfl, show d + 1 + 1 - 1 = d + 1 from rfl, show d + 1 + 1 = d + 2 from rfl]
  push_cast
  have e : a + ((d:ℝ) + 2) - 1 = a + d + 1 := by ring
  have e' : a + ((d:ℝ) + 1) - 1 = a + d := by ring
  simp only [e, e']
  have hq : a + d ≠ 0 := by positivity
  have hq1 : a + d + 1 ≠ 0 := by positivity
  field_simp
  linear_combination h

/-- errors at an odd level -/
theorem amp_odd (ha : 0 < a) (hz : 0 ≤ z) {k : ℕ} (hk : 1 ≤ k) :
    |cf a z (2 * k + 1)| / KT a z (2 * k + 1 + 1) ≤ z / (4 * k) * KT a z (2 * k + 1) := by
  have hk1 : (1:ℝ) ≤ k := by exact_mod_cast hk
  have h := ku_ratio (k := k) (b := a + 2 * k) (by linarith) (by linarith) hz
  have h0 := N_pos ha hz (2 * k)
  have h1 := N_pos ha hz (2 * k + 1)
  have h2 := N_pos ha hz (2 * k + 2)
  rw [div_le_iff₀ (KT_pos ha hz (by omega))]
  unfold KT
  rw [show 2 * k + 1 - 1 = 2 * k from rfl, show 2 * k + 1 + 1 - 1 = 2 * k + 1 from rfl]
  rw [← N_two] at h
  have e2 : ku ((k:ℝ) + 1) (a + 2 * k + 2) z = N a z (2 * k + 2) := by
    rw [show 2 * k + 2 = 2 * (k + 1) by ring, N_two]; push_cast; congr 1; ring
  rw [e2] at h
  rw [show 2 * k + 1 + 1 = 2 * k + 2 from rfl]
  unfold cf
  rw [if_pos (by omega), abs_neg, abs_of_nonneg (mul_nonneg (by push_cast; linarith) hz)]
  push_cast
  generalize N a z (2 * k) = n0 at *
  generalize N a z (2 * k + 1) = n1 at *
  generalize N a z (2 * k + 2) = n2 at *
  have e3 : z / (4 * k) * ((a + (2 * (k:ℝ) + 1) - 1) * n0 / n1) * ((a + (2 * (k:ℝ) + 2) - 1) * n1 / n2) =
      z / (4 * k * n2) * ((a + 2 * k) * (a + 2 * k + 1) * n0) := by
    field_simp; ring
  have e4 : (a - 1 + (2 * (k:ℝ) + 1 + 1) / 2) * z = z / (4 * k * n2) * (k * (4 * (a + k)) * n2) := by
    field_simp; ring
  rw [e3, e4]
  refine mul_le_mul_of_nonneg_left (le_trans ?_ h) (by positivity)
  rw [show a + 2 * (k:ℝ) - k = a + k by ring]
  gcongr
  linarith

/-- errors at an even level -/
theorem amp_even (ha : 0 < a) (hz : 0 ≤ z) {k : ℕ} (hk : 1 ≤ k) :
    |cf a z (2 * k)| / KT a z (2 * k + 1) ≤ z / (4 * a + 4 * k - 3) * KT a z (2 * k) := by
  have hk1 : (1:ℝ) ≤ k := by exact_mod_cast hk
  obtain ⟨m, rfl⟩ : ∃ m, k = m + 1 := ⟨k - 1, by omega⟩
  have hm : (0:ℝ) ≤ m := Nat.cast_nonneg m
  have h := ku_ratio (k := m + 1) (b := a + 2 * m + 1) (by linarith) (by linarith) hz
  have h0 := N_pos ha hz (2 * m + 1)
  have h1 := N_pos ha hz (2 * m + 2)
  have h2 := N_pos ha hz (2 * m + 3)
  rw [div_le_iff₀ (KT_pos ha hz (by omega))]
  unfold KT
  rw [show 2 * (m + 1) + 1 - 1 = 2 * m + 2 from rfl, show 2 * (m + 1) - 1 = 2 * m + 1 from rfl,
    show 2 * (m + 1) + 1 = 2 * m + 3 from rfl, show 2 * (m + 1) = 2 * m + 2 from rfl]
  rw [← N_two_one] at h
  have e2 : ku ((m:ℝ) + 1 + 1) (a + 2 * m + 1 + 2) z = N a z (2 * m + 3) := by
    rw [show 2 * m + 3 = 2 * (m + 1) + 1 by ring, N_two_one]; push_cast; congr 1; ring
  rw [e2] at h
  unfold cf
  rw [if_neg (by omega), abs_of_nonneg (mul_nonneg (by positivity) hz)]
  push_cast
  generalize N a z (2 * m + 1) = n0 at *
  generalize N a z (2 * m + 2) = n1 at *
  generalize N a z (2 * m + 3) = n2 at *
  have hq : 4 * a + 4 * ((m:ℝ) + 1) - 3 = 4 * a + 4 * m + 1 := by ring
  rw [hq]
  have hq0 : 0 < 4 * a + 4 * (m:ℝ) + 1 := by linarith
  have e3 : z / (4 * a + 4 * m + 1) * ((a + (2 * (m:ℝ) + 2) - 1) * n0 / n1) * ((a + (2 * (m:ℝ) + 3) - 1) * n1 / n2) =
      z / ((4 * a + 4 * m + 1) * n2) * ((a + 2 * m + 1) * (a + 2 * m + 1 + 1) * n0) := by
    field_simp; ring
  have e4 : (2 * (m:ℝ) + 2) / 2 * z = z / ((4 * a + 4 * m + 1) * n2) * ((m + 1) * (4 * a + 4 * m + 1) * n2) := by
    field_simp
  rw [e3, e4]
  refine mul_le_mul_of_nonneg_left (le_trans (le_of_eq ?_) h) (by positivity)
  ring

theorem cf_even_nonneg (hz : 0 ≤ z) {d : ℕ} (h : d % 2 = 0) : 0 ≤ cf a z d := by
  unfold cf; rw [if_neg (by omega)]; positivity

theorem amp_even_one (ha : 0 < a) (hz : 0 ≤ z) {k : ℕ} (hk : 1 ≤ k) :
    |cf a z (2 * k)| / KT a z (2 * k + 1) ≤ KT a z (2 * k) := by
  have h := KT_rec ha hz (d := 2 * k) (by omega)
  rw [abs_of_nonneg (cf_even_nonneg hz (by omega))]
  have hk1 : (1:ℝ) ≤ k := by exact_mod_cast hk
  push_cast at h
  linarith

theorem KT_one (a z : ℝ) : KT a z 1 = a / ku 1 (a + 1) z := by
  unfold KT N
  norm_num [ku_zero]

/-! ## The integral -/

/-- the lower incomplete gamma function -/
noncomputable def lo (a z : ℝ) : ℝ := ∫ t in Ioc 0 z, exp (-t) * t ^ (a - 1)

theorem lo_rec (ha : 0 < a) (hz : 0 < z) : a * lo a z = z ^ a * exp (-z) + lo (a + 1) z := by
  have i1 : IntegrableOn (fun t => exp (-t) * t ^ (a - 1)) (Ioc 0 z) := (Real.GammaIntegral_convergent ha).mono_set Ioc_subset_Ioi_self
  have i2 : IntegrableOn (fun t => exp (-t) * t ^ (a + 1 - 1)) (Ioc 0 z) :=
    (Real.GammaIntegral_convergent (show 0 < a + 1 by linarith)).mono_set Ioc_subset_Ioi_self
  have h := intervalIntegral.integral_eq_sub_of_hasDerivAt_of_le (a := 0) (b := z) (f := fun t => t ^ a * exp (-t))
    (f' := fun t => a * (exp (-t) * t ^ (a - 1)) - exp (-t) * t ^ (a + 1 - 1)) hz.le
    ((continuous_id.rpow_const fun _ => Or.inr ha.le).mul (continuous_exp.comp continuous_neg)).continuousOn
    (fun t ht => by
      have h1 := (Real.hasDerivAt_rpow_const (x := t) (p := a) (Or.inl ht.1.ne'))
      have h2 : HasDerivAt (fun s : ℝ => exp (-s)) (-exp (-t)) t := by
        simpa using (hasDerivAt_neg t).exp
      refine (h1.mul h2).congr_deriv ?_
      rw [add_sub_cancel_right]; ring)
    (by
      rw [intervalIntegrable_iff_integrableOn_Ioc_of_le hz.le]
      exact (i1.const_mul a).sub i2)
  rw [intervalIntegral.integral_of_le hz.le, integral_sub (i1.const_mul a) i2, integral_const_mul, zero_rpow ha.ne', zero_mul, sub_zero] at h
  unfold lo
  linarith

theorem lo_nonneg (a z : ℝ) : 0 ≤ lo a z :=
  setIntegral_nonneg measurableSet_Ioc fun _ hx => mul_nonneg (exp_pos _).le (rpow_nonneg hx.1.le _)

theorem lo_le (ha : 0 < a) (hz : 0 < z) : lo a z ≤ z ^ a / a := by
  have h1 : ∫ t in Ioc 0 z, t ^ (a - 1) = z ^ a / a := by
    rw [← intervalIntegral.integral_of_le hz.le, integral_rpow (Or.inl (by linarith)), sub_add_cancel, zero_rpow ha.ne', sub_zero]
  rw [← h1]
  refine setIntegral_mono_on ((Real.GammaIntegral_convergent ha).mono_set Ioc_subset_Ioi_self) ?_ measurableSet_Ioc fun t ht => ?_
  · rw [← intervalIntegrable_iff_integrableOn_Ioc_of_le hz.le]
    exact intervalIntegral.intervalIntegrable_rpow' (by linarith)
  · refine mul_le_of_le_one_left (rpow_nonneg ht.1.le _) ?_
    rw [exp_le_one_iff]; linarith [ht.1]

/-- `γ(a,z) = z^a e^(-z) M(1, a+1, z) / a`, in the form of a finite sum with remainder -/
theorem lo_sum (ha : 0 < a) (hz : 0 < z) (n : ℕ) :
    a * lo a z = z ^ a * exp (-z) * (∑ j ∈ Finset.range (n + 1), kuC 1 (a + 1) j * z ^ j) + kuC 1 (a + 1) n * lo (a + n + 1) z := by
  induction n with
  | zero => simp [kuC, lo_rec ha hz]
  | succ n ih =>
    rw [ih, Finset.sum_range_succ _ (n + 1)]
    have h := lo_rec (a := a + n + 1) (by positivity) hz
    have e : kuC 1 (a + 1) (n + 1) = kuC 1 (a + 1) n / (a + n + 1) := by
      rw [kuC]; field_simp; ring
    rw [e]
    have h0 : a + n + 1 ≠ 0 := by positivity
    have hp : z ^ (a + n + 1) = z ^ a * z ^ (n + 1) := by
      rw [show a + n + 1 = a + ((n + 1 : ℕ) : ℝ) by push_cast; ring, rpow_add hz, rpow_natCast]
    rw [hp] at h
    push_cast
    rw [show a + ((n:ℝ) + 1) + 1 = a + n + 1 + 1 by ring]
    have h' : lo (a + n + 1) z = (z ^ a * z ^ (n + 1) * exp (-z) + lo (a + n + 1 + 1) z) / (a + n + 1) := by
      rw [eq_div_iff h0]; linarith
    rw [h']
    field_simp
    ring

theorem lo_eq (ha : 0 < a) (hz : 0 < z) : a * lo a z = z ^ a * exp (-z) * ku 1 (a + 1) z := by
  have hs := kuC_summable (k := 1) (b := a + 1) zero_le_one (by linarith) (by linarith) hz.le
  have t1 : Tendsto (fun n => z ^ a * exp (-z) * (∑ j ∈ Finset.range (n + 1), kuC 1 (a + 1) j * z ^ j)) atTop
      (𝓝 (z ^ a * exp (-z) * ku 1 (a + 1) z)) :=
    ((tendsto_add_atTop_iff_nat 1).2 hs.hasSum.tendsto_sum_nat).const_mul _
  have t2 : Tendsto (fun n : ℕ => kuC 1 (a + 1) n * lo (a + n + 1) z) atTop (𝓝 0) := by
    have hb : Tendsto (fun n : ℕ => z ^ (a + 1) * (kuC 1 (a + 1) n * z ^ n)) atTop (𝓝 0) := by
      have := hs.tendsto_atTop_zero.const_mul (z ^ (a + 1))
      rwa [mul_zero] at this
    refine squeeze_zero (fun n => mul_nonneg (kuC_nonneg zero_le_one (by linarith) n) (lo_nonneg _ _)) (fun n => ?_) hb
    have hn : (0:ℝ) ≤ n := Nat.cast_nonneg n
    have h1 := lo_le (a := a + n + 1) (by linarith) hz
    have h2 : z ^ (a + n + 1) / (a + n + 1) ≤ z ^ (a + 1) * z ^ n := by
      rw [show a + n + 1 = (a + 1) + (n:ℝ) by ring, rpow_add hz, rpow_natCast]
      exact div_le_self (by positivity) (by linarith)
    have := mul_le_mul_of_nonneg_left (h1.trans h2) (kuC_nonneg (k := 1) (b := a + 1) zero_le_one (by linarith) n)
    linarith
  have t3 := t1.add t2
  simp only [← lo_sum ha hz, add_zero] at t3
  exact tendsto_nhds_unique tendsto_const_nhds t3

end Gcem.Ku
