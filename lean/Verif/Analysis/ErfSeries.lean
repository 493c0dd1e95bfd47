import Mathlib.Analysis.SpecialFunctions.Integrals.Basic
import Mathlib.Analysis.SpecialFunctions.ExpDeriv
import Mathlib.Analysis.Normed.Ring.InfiniteSum
import Mathlib.Topology.Algebra.InfiniteSum.Order
import Mathlib.Tactic.FieldSimp
import Mathlib.Tactic.Linarith
import Mathlib.Tactic.Ring
import Mathlib.Tactic.Positivity

/-!
# The continued fraction of the error function near zero

`erG d s` is the confluent hypergeometric function `M(d, d + 1/2, s)`, given by its power series.
`erT d s = (2d-1) erG (d-1) s / erG d s` are the exact tails of the continued fraction used by `erf` for small
arguments; `erT 1 (x^2) = x e^(-x^2) / ∫ e^(-t^2)`.
-/

namespace Gcem
open Finset

/-- coefficients of `M(d, d + 1/2, s)` -/
noncomputable def erC (d : ℕ) : ℕ → ℝ
  | 0 => 1
  | n + 1 => erC d n * ((d + n) / ((d + n + 1 / 2) * (n + 1)))

theorem erC_nonneg (d n : ℕ) : 0 ≤ erC d n := by
  induction n with
  | zero => simp [erC]
  | succ n ih => rw [erC]; positivity

theorem erC_le (d n : ℕ) : erC d n ≤ 1 / (n.factorial : ℝ) := by
  induction n with
  | zero => simp [erC]
  | succ n ih =>
    rw [erC, Nat.factorial_succ]
    have h1 : ((d:ℝ) + n) / ((d + n + 1 / 2) * (n + 1)) ≤ 1 / (n + 1) := by
      rw [div_le_div_iff₀ (by positivity) (by positivity)]
      have : (0:ℝ) ≤ n := Nat.cast_nonneg n
      nlinarith
    refine (mul_le_mul ih h1 (by positivity) (by positivity)).trans (le_of_eq ?_)
    push_cast; field_simp

theorem erC_summable (d : ℕ) {s : ℝ} (hs : 0 ≤ s) : Summable fun n => erC d n * s ^ n := by
  refine Summable.of_nonneg_of_le (fun n => mul_nonneg (erC_nonneg d n) (pow_nonneg hs n)) (fun n => ?_)
    (Real.summable_pow_div_factorial s)
  calc erC d n * s ^ n ≤ 1 / (n.factorial : ℝ) * s ^ n := mul_le_mul_of_nonneg_right (erC_le d n) (pow_nonneg hs n)
    _ = _ := by ring

/-- `M(d, d + 1/2, s)` -/
noncomputable def erG (d : ℕ) (s : ℝ) : ℝ := ∑' n, erC d n * s ^ n

theorem erG_ge_one (d : ℕ) {s : ℝ} (hs : 0 ≤ s) : 1 ≤ erG d s := by
  have := (erC_summable d hs).le_tsum 0 (fun n _ => mul_nonneg (erC_nonneg d n) (pow_nonneg hs n))
  simpa [erC, erG] using this

theorem erG_mono (d : ℕ) {s t : ℝ} (hs : 0 ≤ s) (h : s ≤ t) : erG d s ≤ erG d t :=
  (erC_summable d hs).tsum_le_tsum (fun n => mul_le_mul_of_nonneg_left (pow_le_pow_left₀ hs h n) (erC_nonneg d n))
    (erC_summable d (hs.trans h))

theorem erC_zero_succ (n : ℕ) : erC 0 (n + 1) = 0 := by
  induction n with
  | zero => simp [erC]
  | succ n ih => rw [erC, ih, zero_mul]

theorem erG_zero (s : ℝ) : erG 0 s = 1 := by
  unfold erG
  rw [tsum_eq_single 0]
  · simp [erC]
  · intro n hn
    obtain ⟨m, rfl⟩ := Nat.exists_eq_succ_of_ne_zero hn
    rw [Nat.succ_eq_add_one, erC_zero_succ, zero_mul]

/-- `M'(a, b) = a/b M(a+1, b+1)` on coefficients -/
theorem erC_shift (d n : ℕ) : erC d (n + 1) = d / ((d + 1 / 2) * (n + 1)) * erC (d + 1) n := by
  induction n with
  | zero => simp [erC]
  | succ n ih =>
    rw [erC, ih, erC]
    push_cast
    field_simp
    ring

theorem erC_up (d n : ℕ) : erC (d + 1) n * ((d:ℝ) * (d + n + 1 / 2)) = erC d n * ((d + n) * (d + 1 / 2)) := by
  induction n with
  | zero => simp [erC]
  | succ n ih =>
    rw [erC, erC]
    have h : ((d:ℝ) + 1 + n) ≠ 0 := by positivity
    rcases Nat.eq_zero_or_pos d with rfl | hd
    · rcases Nat.eq_zero_or_pos n with rfl | hn
      · simp
      · obtain ⟨m, rfl⟩ := Nat.exists_eq_succ_of_ne_zero hn.ne'
        rw [Nat.succ_eq_add_one, erC_zero_succ]; simp
    · have hd' : (0:ℝ) < d := by exact_mod_cast hd
      have e : erC d n = erC (d + 1) n * ((d:ℝ) * (d + n + 1 / 2)) / ((d + n) * (d + 1 / 2)) := by
        rw [eq_div_iff (by positivity)]; exact ih.symm
      rw [e]
      push_cast
      field_simp
      ring

theorem erC_rec (e n : ℕ) : (2 * (e:ℝ) + 1) * erC e (n + 1) =
    (2 * e + 1) * erC (e + 1) (n + 1) - 2 * erC (e + 1) n + 4 * (e + 1) / (2 * e + 3) * erC (e + 2) n := by
  have h2 : erC (e + 2) n = erC (e + 1) n * (((e:ℝ) + 1 + n) * (e + 3 / 2)) / ((e + 1) * (e + 1 + n + 1 / 2)) := by
    rw [eq_div_iff (by positivity)]
    have := erC_up (e + 1) n
    push_cast at this
    rw [show (e:ℝ) + 3 / 2 = e + 1 + 1 / 2 by ring]
    exact this
  rw [erC_shift, h2, erC]
  push_cast
  field_simp
  ring

/-- the contiguous relation -/
theorem erG_rec (e : ℕ) {s : ℝ} (hs : 0 ≤ s) : (2 * (e:ℝ) + 1) * erG e s =
    (2 * e + 1 - 2 * s) * erG (e + 1) s + 4 * (e + 1) / (2 * e + 3) * s * erG (e + 2) s := by
  have split : ∀ d, erG d s = 1 + s * ∑' n, erC d (n + 1) * s ^ n := by
    intro d
    unfold erG
    rw [(erC_summable d hs).tsum_eq_zero_add, ← tsum_mul_left]
    simp only [erC, pow_zero, mul_one]
    congr 1
    refine tsum_congr fun n => ?_
    rw [pow_succ]; ring
  have sm : ∀ d, Summable fun n => erC d (n + 1) * s ^ n := by
    intro d
    refine Summable.of_nonneg_of_le (fun n => mul_nonneg (erC_nonneg d _) (pow_nonneg hs n)) (fun n => ?_)
      (Real.summable_pow_div_factorial s)
    have h1 : erC d (n + 1) ≤ 1 / (n.factorial : ℝ) := by
      refine (erC_le d (n + 1)).trans (one_div_le_one_div_of_le (by positivity) ?_)
      exact_mod_cast Nat.factorial_le (Nat.le_succ n)
    calc erC d (n + 1) * s ^ n ≤ 1 / (n.factorial : ℝ) * s ^ n := mul_le_mul_of_nonneg_right h1 (pow_nonneg hs n)
      _ = _ := by ring
  have key : (2 * (e:ℝ) + 1) * ∑' n, erC e (n + 1) * s ^ n = (2 * e + 1) * ∑' n, erC (e + 1) (n + 1) * s ^ n
      - 2 * erG (e + 1) s + 4 * (e + 1) / (2 * e + 3) * erG (e + 2) s := by
    unfold erG
    rw [← tsum_mul_left, ← tsum_mul_left, ← tsum_mul_left, ← tsum_mul_left,
      ← ((sm (e + 1)).mul_left _).tsum_sub ((erC_summable (e + 1) hs).mul_left _),
      ← (((sm (e + 1)).mul_left _).sub ((erC_summable (e + 1) hs).mul_left _)).tsum_add ((erC_summable (e + 2) hs).mul_left _)]
    refine tsum_congr fun n => ?_
    rw [← mul_assoc, erC_rec]; ring
  rw [split e]
  have h1 := split (e + 1)
  generalize (∑' n, erC e (n + 1) * s ^ n) = A at *
  generalize (∑' n, erC (e + 1) (n + 1) * s ^ n) = B at *
  have : (2 * (e:ℝ) + 1) * (1 + s * A) = 2 * e + 1 + s * ((2 * e + 1) * A) := by ring
  rw [this, key]
  have h3 : s * ((2 * (e:ℝ) + 1) * B) = (2 * e + 1) * (erG (e + 1) s - 1) := by rw [h1]; ring
  linear_combination h3

/-- the quotients of consecutive coefficients increase -/
theorem erC_cross (e : ℕ) {n m : ℕ} (h : m ≤ n) : erC (e + 1) m * erC e n ≤ erC (e + 1) n * erC e m := by
  rcases Nat.eq_zero_or_pos e with rfl | he
  · rcases Nat.eq_zero_or_pos n with rfl | hn
    · obtain rfl : m = 0 := by omega
      exact le_rfl
    · obtain ⟨k, rfl⟩ := Nat.exists_eq_succ_of_ne_zero hn.ne'
      rw [Nat.succ_eq_add_one, erC_zero_succ, mul_zero]
      exact mul_nonneg (erC_nonneg _ _) (erC_nonneg _ _)
  · have he' : (0:ℝ) < e := by exact_mod_cast he
    have hm : (m:ℝ) ≤ n := by exact_mod_cast h
    have f1 : ∀ k, erC (e + 1) k = erC e k * (((e:ℝ) + k) * (e + 1 / 2)) / (e * (e + k + 1 / 2)) := by
      intro k
      rw [eq_div_iff (by positivity)]; exact erC_up e k
    rw [f1 n, f1 m, div_mul_eq_mul_div, div_mul_eq_mul_div, div_le_div_iff₀ (by positivity) (by positivity)]
    have a := erC_nonneg e m
    have b := erC_nonneg e n
    have k1 : ((e:ℝ) + m) * (e + n + 1 / 2) ≤ (e + n) * (e + m + 1 / 2) := by nlinarith
    have := mul_le_mul_of_nonneg_left k1 (show 0 ≤ erC e m * erC e n * ((e + 1 / 2) * e) by positivity)
    nlinarith

/-- `erG (e+1) / erG e` increases -/
theorem erG_cross (e : ℕ) {s t : ℝ} (hs : 0 ≤ s) (h : s ≤ t) : erG (e + 1) s * erG e t ≤ erG (e + 1) t * erG e s := by
  have ht := hs.trans h
  have nn : ∀ d : ℕ, ∀ x : ℝ, 0 ≤ x → ∀ n, 0 ≤ erC d n * x ^ n :=
    fun d x hx n => mul_nonneg (erC_nonneg d n) (pow_nonneg hx n)
  have S1 := (erC_summable (e + 1) ht).mul_of_nonneg (erC_summable e hs) (nn _ _ ht) (nn _ _ hs)
  have S2 := (erC_summable (e + 1) hs).mul_of_nonneg (erC_summable e ht) (nn _ _ hs) (nn _ _ ht)
  have P1 : erG (e + 1) t * erG e s = ∑' p : ℕ × ℕ, (erC (e + 1) p.1 * t ^ p.1) * (erC e p.2 * s ^ p.2) :=
    (erC_summable (e + 1) ht).tsum_mul_tsum (erC_summable e hs) S1
  have P2 : erG (e + 1) s * erG e t = ∑' p : ℕ × ℕ, (erC (e + 1) p.1 * s ^ p.1) * (erC e p.2 * t ^ p.2) :=
    (erC_summable (e + 1) hs).tsum_mul_tsum (erC_summable e ht) S2
  set F : ℕ × ℕ → ℝ := fun p => (erC (e + 1) p.1 * t ^ p.1) * (erC e p.2 * s ^ p.2)
    - (erC (e + 1) p.1 * s ^ p.1) * (erC e p.2 * t ^ p.2) with hF
  have SF : Summable F := S1.sub S2
  have SF' : Summable fun p : ℕ × ℕ => F p.swap := (Equiv.prodComm ℕ ℕ).summable_iff.2 SF
  have D : erG (e + 1) t * erG e s - erG (e + 1) s * erG e t = ∑' p, F p := by
    rw [P1, P2, ← S1.tsum_sub S2]
  have D' : ∑' p : ℕ × ℕ, F p.swap = ∑' p, F p := (Equiv.prodComm ℕ ℕ).tsum_eq F
  have two : 2 * (erG (e + 1) t * erG e s - erG (e + 1) s * erG e t) = ∑' p : ℕ × ℕ, (F p + F p.swap) := by
    rw [SF.tsum_add SF', D', D]; ring
  have pos : 0 ≤ ∑' p : ℕ × ℕ, (F p + F p.swap) := by
    refine tsum_nonneg fun p => ?_
    obtain ⟨n, m⟩ := p
    simp only [hF, Prod.swap]
    have eq : erC (e + 1) n * t ^ n * (erC e m * s ^ m) - erC (e + 1) n * s ^ n * (erC e m * t ^ m) +
        (erC (e + 1) m * t ^ m * (erC e n * s ^ n) - erC (e + 1) m * s ^ m * (erC e n * t ^ n)) =
        (erC (e + 1) n * erC e m - erC (e + 1) m * erC e n) * (t ^ n * s ^ m - s ^ n * t ^ m) := by ring
    rw [eq]
    have pw : ∀ a b : ℕ, b ≤ a → s ^ a * t ^ b ≤ t ^ a * s ^ b := by
      intro a b hab
      obtain ⟨k, rfl⟩ := Nat.exists_eq_add_of_le hab
      have := mul_le_mul_of_nonneg_left (pow_le_pow_left₀ hs h k) (mul_nonneg (pow_nonneg hs b) (pow_nonneg ht b))
      calc s ^ (b + k) * t ^ b = s ^ b * t ^ b * s ^ k := by rw [pow_add]; ring
        _ ≤ _ := this
        _ = _ := by rw [pow_add]; ring
    rcases le_total m n with hmn | hmn
    · exact mul_nonneg (sub_nonneg.2 (erC_cross e hmn)) (sub_nonneg.2 (pw n m hmn))
    · refine mul_nonneg_of_nonpos_of_nonpos (sub_nonpos.2 (erC_cross e hmn)) (sub_nonpos.2 ?_)
      have := pw m n hmn
      linarith
  linarith

/-- the exact tails of the continued fraction, `d ≥ 1` -/
noncomputable def erT (d : ℕ) (s : ℝ) : ℝ := (2 * d - 1) * erG (d - 1) s / erG d s

theorem erT_pos (d : ℕ) (hd : 1 ≤ d) {s : ℝ} (hs : 0 ≤ s) : 0 < erT d s := by
  have h1 := erG_ge_one (d - 1) hs
  have h2 := erG_ge_one d hs
  have h3 : (1:ℝ) ≤ d := by exact_mod_cast hd
  exact div_pos (mul_pos (by linarith) (by linarith)) (by linarith)

theorem erT_rec (d : ℕ) (hd : 1 ≤ d) {s : ℝ} (hs : 0 ≤ s) :
    erT d s = 2 * d - 1 - 2 * s + 4 * d * s / erT (d + 1) s := by
  obtain ⟨e, rfl⟩ : ∃ e, d = e + 1 := ⟨d - 1, by omega⟩
  have h1 := erG_ge_one (e + 1) hs
  have h2 := erG_ge_one (e + 2) hs
  have r := erG_rec e hs
  unfold erT
  simp only [Nat.add_sub_cancel]
  push_cast
  have n1 : erG (e + 1) s ≠ 0 := by positivity
  have n2 : erG (e + 1 + 1) s ≠ 0 := by
    have : 0 < erG (e + 2) s := by linarith
    exact this.ne'
  have n3 : (2 * ((e:ℝ) + 1 + 1) - 1) ≠ 0 := by
    have : (0:ℝ) ≤ e := Nat.cast_nonneg e
    have : 0 < (2 * ((e:ℝ) + 1 + 1) - 1) := by linarith
    exact this.ne'
  have n4 : (2 * (e:ℝ) + 3) ≠ 0 := by positivity
  have r' : (2 * (e:ℝ) + 3) * ((2 * (e:ℝ) + 1) * erG e s) =
      (2 * e + 3) * (2 * e + 1 - 2 * s) * erG (e + 1) s + 4 * (e + 1) * s * erG (e + 1 + 1) s := by
    rw [r]; field_simp
  rw [div_div_eq_mul_div, div_eq_iff n1, add_mul, div_mul_eq_mul_div, ← sub_eq_iff_eq_add', eq_div_iff (mul_ne_zero n3 n1)]
  linear_combination erG (e + 1) s * r'

theorem erT_anti (d : ℕ) (hd : 1 ≤ d) {s t : ℝ} (hs : 0 ≤ s) (h : s ≤ t) : erT d t ≤ erT d s := by
  obtain ⟨e, rfl⟩ : ∃ e, d = e + 1 := ⟨d - 1, by omega⟩
  have h1 := erG_ge_one (e + 1) hs
  have h2 := erG_ge_one (e + 1) (hs.trans h)
  have h3 := erG_cross e hs h
  unfold erT
  simp only [Nat.add_sub_cancel]
  rw [div_le_div_iff₀ (by linarith) (by linarith)]
  have : (0:ℝ) ≤ 2 * ((e + 1 : ℕ) : ℝ) - 1 := by push_cast; linarith [(Nat.cast_nonneg e : (0:ℝ) ≤ e)]
  have := mul_le_mul_of_nonneg_left h3 this
  linarith

theorem erT_zero (d : ℕ) : erT d 0 = 2 * d - 1 := by
  have : ∀ k, erG k 0 = 1 := by
    intro k
    unfold erG
    rw [tsum_eq_single 0]
    · simp [erC]
    · intro n hn; simp [hn]
  unfold erT
  rw [this, this]; simp

theorem erT_le (d : ℕ) (hd : 1 ≤ d) {s : ℝ} (hs : 0 ≤ s) : erT d s ≤ 2 * d - 1 := by
  rw [← erT_zero]; exact erT_anti d hd le_rfl hs

theorem erT_ge (d : ℕ) (hd : 1 ≤ d) {s : ℝ} (hs : 0 ≤ s) : 2 * d - 1 - 2 * s ≤ erT d s := by
  rw [erT_rec d hd hs]
  have := erT_pos (d + 1) (by omega) hs
  have : 0 ≤ 4 * d * s / erT (d + 1) s := by positivity
  linarith

/-! ## The integral -/

/-- the error function -/
noncomputable def erfR (x : ℝ) : ℝ := 2 / Real.sqrt Real.pi * ∫ t in (0:ℝ)..x, Real.exp (-t ^ 2)

theorem erI_step (n : ℕ) (x : ℝ) : (∫ t in (0:ℝ)..x, t ^ (2 * n) * Real.exp (-t ^ 2)) =
    x ^ (2 * n + 1) * Real.exp (-x ^ 2) / (2 * n + 1) +
      2 / (2 * n + 1) * ∫ t in (0:ℝ)..x, t ^ (2 * (n + 1)) * Real.exp (-t ^ 2) := by
  have hd : ∀ t : ℝ, HasDerivAt (fun t : ℝ => t ^ (2 * n + 1) * Real.exp (-t ^ 2))
      ((2 * n + 1) * (t ^ (2 * n) * Real.exp (-t ^ 2)) - 2 * (t ^ (2 * (n + 1)) * Real.exp (-t ^ 2))) t := by
    intro t
    have h1 := hasDerivAt_pow (2 * n + 1) t
    have h2 := ((hasDerivAt_pow 2 t).neg).exp
    refine (h1.mul h2).congr_deriv ?_
    push_cast
    rw [show 2 * (n + 1) = 2 * n + 1 + 1 by ring, pow_succ t (2 * n + 1), pow_succ t (2 * n)]
    simp
    ring
  have ci : ∀ k : ℕ, IntervalIntegrable (fun t : ℝ => t ^ k * Real.exp (-t ^ 2)) MeasureTheory.volume 0 x :=
    fun k => (Continuous.mul (by fun_prop) (by fun_prop)).intervalIntegrable 0 x
  have := intervalIntegral.integral_eq_sub_of_hasDerivAt (a := 0) (b := x) (fun t _ => hd t)
    (((ci (2 * n)).const_mul _).sub ((ci (2 * (n + 1))).const_mul _))
  rw [intervalIntegral.integral_sub ((ci (2 * n)).const_mul _) ((ci (2 * (n + 1))).const_mul _),
    intervalIntegral.integral_const_mul, intervalIntegral.integral_const_mul] at this
  have p : (2 * (n:ℝ) + 1) ≠ 0 := by positivity
  simp at this
  field_simp
  linarith

theorem erI_sum (n : ℕ) (x : ℝ) : (∫ t in (0:ℝ)..x, Real.exp (-t ^ 2)) =
    x * Real.exp (-x ^ 2) * ∑ k ∈ range n, erC 1 k * (x ^ 2) ^ k +
      (2 * n + 1) * erC 1 n * ∫ t in (0:ℝ)..x, t ^ (2 * n) * Real.exp (-t ^ 2) := by
  induction n with
  | zero => simp [erC]
  | succ n ih =>
    rw [ih, erI_step n x, sum_range_succ, erC]
    generalize (∑ k ∈ range n, erC 1 k * (x ^ 2) ^ k) = A
    generalize (∫ t in (0:ℝ)..x, t ^ (2 * (n + 1)) * Real.exp (-t ^ 2)) = I
    have p : (2 * (n:ℝ) + 1) ≠ 0 := by positivity
    push_cast
    rw [← pow_mul, pow_succ x (2 * n)]
    field_simp
    ring

theorem erI_eq {x : ℝ} (hx : 0 < x) : (∫ t in (0:ℝ)..x, Real.exp (-t ^ 2)) =
    x * Real.exp (-x ^ 2) * erG 1 (x ^ 2) := by
  have h1 := ((erC_summable 1 (sq_nonneg x)).hasSum.tendsto_sum_nat).const_mul (x * Real.exp (-x ^ 2))
  have h2 : Filter.Tendsto (fun n : ℕ => (2 * n + 1) * erC 1 n * ∫ t in (0:ℝ)..x, t ^ (2 * n) * Real.exp (-t ^ 2))
      Filter.atTop (nhds 0) := by
    have b : Filter.Tendsto (fun n : ℕ => 3 * x * ((2 * x ^ 2) ^ n / (n.factorial : ℝ))) Filter.atTop (nhds 0) := by
      have := (Real.summable_pow_div_factorial (2 * x ^ 2)).tendsto_atTop_zero.const_mul (3 * x)
      simpa using this
    refine squeeze_zero (fun n => ?_) (fun n => ?_) b
    · refine mul_nonneg (mul_nonneg (by positivity) (erC_nonneg 1 n)) ?_
      exact intervalIntegral.integral_nonneg hx.le fun t ht => mul_nonneg (pow_nonneg ht.1 _) (Real.exp_pos _).le
    · have i1 : (∫ t in (0:ℝ)..x, t ^ (2 * n) * Real.exp (-t ^ 2)) ≤ x ^ (2 * n) * x := by
        have : (∫ t in (0:ℝ)..x, t ^ (2 * n) * Real.exp (-t ^ 2)) ≤ ∫ t in (0:ℝ)..x, x ^ (2 * n) := by
          refine intervalIntegral.integral_mono_on hx.le (Continuous.intervalIntegrable (by fun_prop) 0 x)
            (Continuous.intervalIntegrable (by fun_prop) 0 x) fun t ht => ?_
          have e1 : Real.exp (-t ^ 2) ≤ 1 := Real.exp_le_one_iff.2 (by nlinarith [sq_nonneg t])
          calc t ^ (2 * n) * Real.exp (-t ^ 2) ≤ x ^ (2 * n) * 1 :=
                mul_le_mul (pow_le_pow_left₀ ht.1 ht.2 _) e1 (Real.exp_pos _).le (pow_nonneg hx.le _)
            _ = _ := mul_one _
        refine this.trans (le_of_eq ?_)
        simp; ring
      have i0 : 0 ≤ (∫ t in (0:ℝ)..x, t ^ (2 * n) * Real.exp (-t ^ 2)) :=
        intervalIntegral.integral_nonneg hx.le fun t ht => mul_nonneg (pow_nonneg ht.1 _) (Real.exp_pos _).le
      have k1 : (2 * (n:ℝ) + 1) ≤ 3 * 2 ^ n := by
        have : (n:ℝ) + 1 ≤ 2 ^ n := by exact_mod_cast Nat.lt_two_pow_self
        have : (1:ℝ) ≤ 2 ^ n := one_le_pow₀ (by norm_num)
        linarith
      calc (2 * (n:ℝ) + 1) * erC 1 n * ∫ t in (0:ℝ)..x, t ^ (2 * n) * Real.exp (-t ^ 2)
          ≤ (3 * 2 ^ n * (1 / (n.factorial : ℝ))) * (x ^ (2 * n) * x) :=
            mul_le_mul (mul_le_mul k1 (erC_le 1 n) (erC_nonneg 1 n) (by positivity)) i1 i0 (by positivity)
        _ = _ := by rw [mul_pow, ← pow_mul]; ring
  have h3 := h1.add h2
  rw [add_zero] at h3
  have h4 : (fun n : ℕ => x * Real.exp (-x ^ 2) * ∑ k ∈ range n, erC 1 k * (x ^ 2) ^ k +
      (2 * n + 1) * erC 1 n * ∫ t in (0:ℝ)..x, t ^ (2 * n) * Real.exp (-t ^ 2)) =
      fun _ => ∫ t in (0:ℝ)..x, Real.exp (-t ^ 2) := funext fun n => (erI_sum n x).symm
  rw [h4] at h3
  exact tendsto_nhds_unique tendsto_const_nhds h3

/-- the continued fraction of the error function -/
theorem erfR_eq {x : ℝ} (hx : 0 < x) : erfR x = 2 * x * (Real.exp (-x ^ 2) / Real.sqrt Real.pi) / erT 1 (x ^ 2) := by
  unfold erfR erT
  rw [erI_eq hx]
  simp only [Nat.sub_self, erG_zero, Nat.cast_one]
  have := erG_ge_one 1 (sq_nonneg x)
  have p : 0 < Real.sqrt Real.pi := Real.sqrt_pos.2 Real.pi_pos
  norm_num
  field_simp

end Gcem
