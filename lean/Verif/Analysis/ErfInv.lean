import Verif.Props.ErfBig
import Mathlib.Analysis.Calculus.MeanValue
import Mathlib.MeasureTheory.Integral.IntervalIntegral.FundThmCalculus
import Mathlib.Analysis.Convex.Deriv

/-! # The error function as a strictly increasing function with a known derivative -/

namespace Gcem

theorem erfR_deriv (x : ℝ) : HasDerivAt erfR (2 / Real.sqrt Real.pi * Real.exp (-x ^ 2)) x := by
  have hc : Continuous (fun t : ℝ => Real.exp (-t ^ 2)) := by fun_prop
  exact (intervalIntegral.integral_hasDerivAt_right (hc.intervalIntegrable 0 x)
    (hc.stronglyMeasurableAtFilter _ _) hc.continuousAt).const_mul _

theorem erfR_cont : Continuous erfR := continuous_iff_continuousAt.2 fun x => (erfR_deriv x).continuousAt

theorem erfR_zero : erfR 0 = 0 := by simp [erfR]

theorem erfC_pos : 0 < 2 / Real.sqrt Real.pi := by
  have := Real.sqrt_pos.2 Real.pi_pos
  positivity

theorem erfC_le : 2 / Real.sqrt Real.pi ≤ 112838 / 100000 := by
  have h : (1772453 / 1000000 : ℝ) ≤ Real.sqrt Real.pi := Real.le_sqrt_of_sq_le (by
    have := Real.pi_gt_d6; norm_num at this ⊢; linarith)
  rw [div_le_iff₀ (Real.sqrt_pos.2 Real.pi_pos)]
  linarith

theorem erfC_ge : 112837 / 100000 ≤ 2 / Real.sqrt Real.pi := by
  have h : Real.sqrt Real.pi ≤ (177246 / 100000 : ℝ) := Real.sqrt_le_iff.2 ⟨by norm_num, by
    have := Real.pi_lt_d6; norm_num at this ⊢; linarith⟩
  rw [le_div_iff₀ (Real.sqrt_pos.2 Real.pi_pos)]
  linarith

/-- slope of the error function between two points of `[A, B]` -/
theorem erfR_slope {A B v y : ℝ} (hA : 0 ≤ A) (v1 : A ≤ v) (v2 : v ≤ B) (y1 : A ≤ y) (y2 : y ≤ B) :
    ∃ h : ℝ, erfR v - erfR y = 2 / Real.sqrt Real.pi * h * (v - y) ∧ Real.exp (-B ^ 2) ≤ h ∧ h ≤ Real.exp (-A ^ 2) := by
  have key : ∀ t, A ≤ t → t ≤ B → Real.exp (-B ^ 2) ≤ Real.exp (-t ^ 2) ∧ Real.exp (-t ^ 2) ≤ Real.exp (-A ^ 2) :=
    fun t h1 h2 => ⟨Real.exp_le_exp.2 (by nlinarith), Real.exp_le_exp.2 (by nlinarith)⟩
  rcases lt_trichotomy v y with h | h | h
  · obtain ⟨c, ⟨c1, c2⟩, e⟩ := exists_hasDerivAt_eq_slope erfR _ h erfR_cont.continuousOn (fun x _ => erfR_deriv x)
    refine ⟨_, ?_, key c (by linarith) (by linarith)⟩
    rw [e]; field_simp [show y - v ≠ 0 by linarith]; ring
  · subst h; exact ⟨_, by simp, key v v1 v2⟩
  · obtain ⟨c, ⟨c1, c2⟩, e⟩ := exists_hasDerivAt_eq_slope erfR _ h erfR_cont.continuousOn (fun x _ => erfR_deriv x)
    refine ⟨_, ?_, key c (by linarith) (by linarith)⟩
    rw [e]; field_simp [show v - y ≠ 0 by linarith]

theorem erfR_lt {x y : ℝ} (h : x < y) : erfR x < erfR y := by
  obtain ⟨c, ⟨c1, c2⟩, e⟩ := exists_hasDerivAt_eq_slope erfR _ h erfR_cont.continuousOn (fun x _ => erfR_deriv x)
  have : 0 < 2 / Real.sqrt Real.pi * Real.exp (-c ^ 2) := mul_pos erfC_pos (Real.exp_pos _)
  rw [e] at this
  have := (div_pos_iff_of_pos_right (by linarith)).1 this
  linarith

theorem le_of_erfR_le {x y : ℝ} (h : erfR x ≤ erfR y) : x ≤ y := by
  by_contra hc
  exact absurd (erfR_lt (not_le.1 hc)) (not_lt.2 h)

/-- `0 ≤ erf(v) ≤ (2/√π) v` -/
theorem erfR_le_lin {v : ℝ} (hv : 0 ≤ v) : erfR v ≤ 2 / Real.sqrt Real.pi * v := by
  obtain ⟨h, e, -, h2⟩ := erfR_slope (A := 0) (B := v) le_rfl hv le_rfl le_rfl hv
  rw [erfR_zero] at e
  simp at h2 e
  rw [e]
  have := erfC_pos
  have : 2 / Real.sqrt Real.pi * h ≤ 2 / Real.sqrt Real.pi * 1 := by gcongr
  nlinarith

theorem erfR_ge_lin {v : ℝ} (hv : 0 ≤ v) : 2 / Real.sqrt Real.pi * (1 - v ^ 2) * v ≤ erfR v := by
  obtain ⟨h, e, h1, -⟩ := erfR_slope (A := 0) (B := v) le_rfl hv le_rfl le_rfl hv
  rw [erfR_zero] at e
  simp at e
  rw [e]
  have := erfC_pos
  have h3 := Real.add_one_le_exp (-v ^ 2)
  have : 2 / Real.sqrt Real.pi * (1 - v ^ 2) ≤ 2 / Real.sqrt Real.pi * h := by
    gcongr; linarith
  nlinarith

theorem erfR_surj {p b : ℝ} (h0 : 0 ≤ p) (hb0 : 0 ≤ b) (hb : p ≤ erfR b) : ∃ y, 0 ≤ y ∧ y ≤ b ∧ erfR y = p := by
  have := intermediate_value_Icc hb0 erfR_cont.continuousOn
  obtain ⟨y, ⟨y1, y2⟩, e⟩ := this (show p ∈ Set.Icc (erfR 0) (erfR b) from ⟨by rw [erfR_zero]; exact h0, hb⟩)
  exact ⟨y, y1, y2, e⟩

/-! ## Alternating Taylor polynomials -/

theorem expN_deriv (n : ℕ) (s : ℝ) : HasDerivAt (fun s : ℝ => ∑ k ∈ Finset.range (n + 1), (-s) ^ k / (k.factorial : ℝ))
    (-∑ k ∈ Finset.range n, (-s) ^ k / (k.factorial : ℝ)) s := by
  induction n with
  | zero => simpa using hasDerivAt_const s (1:ℝ)
  | succ n ih =>
    have h1 : HasDerivAt (fun s : ℝ => (-s) ^ (n + 1) / ((n + 1).factorial : ℝ)) (-((-s) ^ n / (n.factorial : ℝ))) s := by
      have := ((hasDerivAt_id s).neg.pow (n + 1)).div_const ((n + 1).factorial : ℝ)
      refine this.congr_deriv ?_
      rw [Nat.factorial_succ]
      push_cast
      have : (n.factorial : ℝ) ≠ 0 := by positivity
      have : (n + 1 : ℝ) ≠ 0 := by positivity
      simp
      field_simp
    refine ((ih.add h1).congr_deriv ?_).congr_of_eventuallyEq ?_
    · rw [Finset.sum_range_succ]; ring
    · filter_upwards with t
      simp only [Pi.add_apply]
      rw [Finset.sum_range_succ _ (n + 1)]

/-- the partial sums of `exp(-s)` are alternately above and below -/
theorem exp_alt (n : ℕ) : (∀ s : ℝ, 0 ≤ s → ∑ k ∈ Finset.range (2 * n), (-s) ^ k / (k.factorial : ℝ) ≤ Real.exp (-s)) ∧
    (∀ s : ℝ, 0 ≤ s → Real.exp (-s) ≤ ∑ k ∈ Finset.range (2 * n + 1), (-s) ^ k / (k.factorial : ℝ)) := by
  have hexp : ∀ s : ℝ, HasDerivAt (fun s : ℝ => Real.exp (-s)) (-Real.exp (-s)) s := fun s => by
    simpa using (hasDerivAt_id s).neg.exp
  have up : ∀ m : ℕ, (∀ s : ℝ, 0 ≤ s → ∑ k ∈ Finset.range m, (-s) ^ k / (k.factorial : ℝ) ≤ Real.exp (-s)) →
      ∀ s : ℝ, 0 ≤ s → Real.exp (-s) ≤ ∑ k ∈ Finset.range (m + 1), (-s) ^ k / (k.factorial : ℝ) := by
    intro m hm s hs
    have hd : ∀ t : ℝ, HasDerivAt (fun s : ℝ => (∑ k ∈ Finset.range (m + 1), (-s) ^ k / (k.factorial : ℝ)) - Real.exp (-s)) _ t :=
      fun t => (expN_deriv m t).sub (hexp t)
    have mono := monotoneOn_of_deriv_nonneg (convex_Ici (0:ℝ)) (fun t _ => (hd t).continuousAt.continuousWithinAt)
      (fun t _ => (hd t).differentiableAt.differentiableWithinAt) (fun t ht => by
        rw [(hd t).deriv]
        have := hm t (by simpa using (interior_subset ht : t ∈ Set.Ici (0:ℝ)))
        linarith)
    have := mono (Set.mem_Ici.2 le_rfl) (Set.mem_Ici.2 hs) hs
    simp only [Finset.sum_range_succ' _ m] at this ⊢
    simp at this ⊢
    linarith
  have dn : ∀ m : ℕ, (∀ s : ℝ, 0 ≤ s → Real.exp (-s) ≤ ∑ k ∈ Finset.range m, (-s) ^ k / (k.factorial : ℝ)) →
      ∀ s : ℝ, 0 ≤ s → ∑ k ∈ Finset.range (m + 1), (-s) ^ k / (k.factorial : ℝ) ≤ Real.exp (-s) := by
    intro m hm s hs
    have hd : ∀ t : ℝ, HasDerivAt (fun s : ℝ => Real.exp (-s) - (∑ k ∈ Finset.range (m + 1), (-s) ^ k / (k.factorial : ℝ))) _ t :=
      fun t => (hexp t).sub (expN_deriv m t)
    have mono := monotoneOn_of_deriv_nonneg (convex_Ici (0:ℝ)) (fun t _ => (hd t).continuousAt.continuousWithinAt)
      (fun t _ => (hd t).differentiableAt.differentiableWithinAt) (fun t ht => by
        rw [(hd t).deriv]
        have := hm t (by simpa using (interior_subset ht : t ∈ Set.Ici (0:ℝ)))
        linarith)
    have := mono (Set.mem_Ici.2 le_rfl) (Set.mem_Ici.2 hs) hs
    simp only [Finset.sum_range_succ' _ m] at this ⊢
    simp at this ⊢
    linarith
  induction n with
  | zero =>
    have h0 : ∀ s : ℝ, 0 ≤ s → ∑ k ∈ Finset.range (2 * 0), (-s) ^ k / (k.factorial : ℝ) ≤ Real.exp (-s) := fun s _ => by
      simpa using (Real.exp_pos (-s)).le
    exact ⟨h0, up _ h0⟩
  | succ n ih =>
    have h1 := dn _ ih.2
    exact ⟨h1, up _ h1⟩

/-- partial sums of the Taylor series of `∫₀ˣ exp(-t²)` -/
def erfN {α : Type} [Field α] (n : ℕ) (x : α) : α := ∑ k ∈ Finset.range n, (-1) ^ k * x ^ (2 * k + 1) / ((k.factorial : α) * (2 * k + 1))

theorem erfN_deriv (n : ℕ) (x : ℝ) : HasDerivAt (erfN n : ℝ → ℝ) (∑ k ∈ Finset.range n, (-x ^ 2) ^ k / (k.factorial : ℝ)) x := by
  unfold erfN
  refine HasDerivAt.fun_sum fun k _ => ?_
  have := (((hasDerivAt_pow (2 * k + 1) x).const_mul ((-1 : ℝ) ^ k)).div_const ((k.factorial : ℝ) * (2 * k + 1)))
  refine this.congr_deriv ?_
  have : (k.factorial : ℝ) ≠ 0 := by positivity
  have : (2 * k + 1 : ℝ) ≠ 0 := by positivity
  rw [neg_pow (x ^ 2), ← pow_mul]
  push_cast
  field_simp

theorem erf_alt (n : ℕ) {x : ℝ} (hx : 0 ≤ x) : 2 / Real.sqrt Real.pi * erfN (2 * n) x ≤ erfR x ∧
    erfR x ≤ 2 / Real.sqrt Real.pi * erfN (2 * n + 1) x := by
  have z : ∀ m, erfN m (0:ℝ) = 0 := fun m => by unfold erfN; refine Finset.sum_eq_zero fun k _ => by simp
  have c0 := erfC_pos
  constructor
  · have hd : ∀ t : ℝ, HasDerivAt (fun t => erfR t - 2 / Real.sqrt Real.pi * erfN (2 * n) t) _ t :=
      fun t => (erfR_deriv t).sub ((erfN_deriv (2 * n) t).const_mul _)
    have mono := monotoneOn_of_deriv_nonneg (convex_Ici (0:ℝ)) (fun t _ => (hd t).continuousAt.continuousWithinAt)
      (fun t _ => (hd t).differentiableAt.differentiableWithinAt) (fun t ht => by
        rw [(hd t).deriv, ← mul_sub]
        exact mul_nonneg c0.le (sub_nonneg.2 ((exp_alt n).1 (t ^ 2) (sq_nonneg t))))
    have := mono (Set.mem_Ici.2 le_rfl) (Set.mem_Ici.2 hx) hx
    simp only [z, erfR_zero] at this
    linarith
  · have hd : ∀ t : ℝ, HasDerivAt (fun t => 2 / Real.sqrt Real.pi * erfN (2 * n + 1) t - erfR t) _ t :=
      fun t => ((erfN_deriv (2 * n + 1) t).const_mul _).sub (erfR_deriv t)
    have mono := monotoneOn_of_deriv_nonneg (convex_Ici (0:ℝ)) (fun t _ => (hd t).continuousAt.continuousWithinAt)
      (fun t _ => (hd t).differentiableAt.differentiableWithinAt) (fun t ht => by
        rw [(hd t).deriv, ← mul_sub]
        exact mul_nonneg c0.le (sub_nonneg.2 ((exp_alt n).2 (t ^ 2) (sq_nonneg t))))
    have := mono (Set.mem_Ici.2 le_rfl) (Set.mem_Ici.2 hx) hx
    simp only [z, erfR_zero] at this
    linarith

/-- `erf(y)/y` decreases -/
theorem erfR_ratio {x y : ℝ} (h0 : 0 ≤ x) (h : x ≤ y) : erfR y * x ≤ erfR x * y := by
  rcases eq_or_lt_of_le (h0.trans h) with h1 | h1
  · rw [← h1] at h ⊢; rw [show x = 0 by linarith]
  have hc : ConcaveOn ℝ (Set.Ici (0:ℝ)) erfR := by
    refine AntitoneOn.concaveOn_of_deriv (convex_Ici _) erfR_cont.continuousOn
      (fun t _ => (erfR_deriv t).differentiableAt.differentiableWithinAt) ?_
    intro a ha b hb hab
    rw [(erfR_deriv a).deriv, (erfR_deriv b).deriv]
    have ha : 0 ≤ a := (interior_subset ha : a ∈ Set.Ici (0:ℝ))
    have := erfC_pos
    gcongr
  have h2 := hc.2 (Set.mem_Ici.2 (h0.trans h)) (Set.mem_Ici.2 (le_refl (0:ℝ))) (show 0 ≤ x / y by positivity)
    (show 0 ≤ 1 - x / y by rw [sub_nonneg, div_le_one h1]; exact h) (by ring)
  simp only [erfR_zero, smul_eq_mul, mul_zero, add_zero] at h2
  rw [show x / y * y = x by field_simp] at h2
  have h3 := mul_le_mul_of_nonneg_right h2 h1.le
  calc erfR y * x = x / y * erfR y * y := by field_simp
    _ ≤ _ := h3

end Gcem
