import Verif.Analysis.CfRic
import Verif.Analysis.TanReal
import Mathlib.Analysis.SpecialFunctions.Trigonometric.DerivHyp

/-!
# The continued fraction of the hyperbolic tangent

`tanhB n` are iterated integrals of the hyperbolic sine (`tanhB (n+1)` is the integral of `t * tanhB n t`);
`tanhR d x = 2d-1 + tanhB d x / tanhB (d-1) x` are the exact tails of the continued fraction, `tanhR 1 x = x / tanh x`.
-/

namespace Gcem
open Real

noncomputable def tanhB : ℕ → ℝ → ℝ
  | 0, x => sinh x
  | 1, x => x * cosh x - sinh x
  | n + 2, x => x ^ 2 * tanhB n x - (2 * n + 3) * tanhB (n + 1) x

theorem tanhB_zero_pt (n : ℕ) : tanhB n 0 = 0 := by
  induction n using Nat.twoStepInduction with
  | zero => simp [tanhB]
  | one => simp [tanhB]
  | more n h1 h2 => simp [tanhB, h2]

theorem tanhB_deriv (n : ℕ) (x : ℝ) : HasDerivAt (tanhB (n + 1)) (x * tanhB n x) x := by
  have h0 : HasDerivAt (fun x => x * cosh x - sinh x) (1 * cosh x + x * sinh x - cosh x) x :=
    ((hasDerivAt_id x).mul (hasDerivAt_cosh x)).sub (hasDerivAt_sinh x)
  induction n using Nat.twoStepInduction with
  | zero => exact h0.congr_deriv (by simp [tanhB])
  | one =>
    have h := (((hasDerivAt_pow 2 x)).mul (hasDerivAt_sinh x)).sub (h0.const_mul 3)
    have e : tanhB (1 + 1) = fun x => x ^ 2 * sinh x - 3 * (x * cosh x - sinh x) := by
      funext x; simp [tanhB]
    rw [e]
    refine h.congr_deriv ?_
    simp [tanhB]; ring
  | more n h1 h2 =>
    have h := ((hasDerivAt_pow 2 x).mul h1).sub ((h2).const_mul (2 * ((n + 1 : ℕ):ℝ) + 3))
    have e : tanhB (n + 2 + 1) = fun x => x ^ 2 * tanhB (n + 1) x - (2 * ((n + 1 : ℕ):ℝ) + 3) * tanhB (n + 1 + 1) x := by
      funext x; rw [show n + 2 + 1 = n + 1 + 2 by ring, tanhB]
    rw [e]
    refine h.congr_deriv ?_
    have e2 : tanhB (n + 2) x = x ^ 2 * tanhB n x - (2 * n + 3) * tanhB (n + 1) x := by rw [tanhB]
    rw [e2]
    push_cast; ring

theorem tanhB_pos (n : ℕ) {x : ℝ} (hx : 0 < x) : 0 < tanhB n x := by
  induction n generalizing x with
  | zero => exact sinh_pos_iff.2 hx
  | succ n ih =>
    exact pos_of_deriv_pos (g := tanhB (n + 1)) (g' := fun x => x * tanhB n x) (tanhB_deriv n)
      (tanhB_zero_pt _) (fun t h0 _ => mul_pos h0 (ih h0)) hx le_rfl

/-- the tails of the continued fraction, `d ≥ 1` -/
noncomputable def tanhR (d : ℕ) (x : ℝ) : ℝ := 2 * d - 1 + tanhB d x / tanhB (d - 1) x

theorem tanhR_rec (d : ℕ) (hd : 1 ≤ d) {x : ℝ} (hx : 0 < x) : tanhR d x = 2 * d - 1 + x ^ 2 / tanhR (d + 1) x := by
  obtain ⟨n, rfl⟩ : ∃ n, d = n + 1 := ⟨d - 1, by omega⟩
  unfold tanhR
  have h0 := tanhB_pos n hx
  have h1 := tanhB_pos (n + 1) hx
  have e : tanhB (n + 1 + 1) x = x ^ 2 * tanhB n x - (2 * n + 3) * tanhB (n + 1) x := by rw [tanhB]
  simp only [Nat.add_sub_cancel]
  rw [e]
  push_cast
  have e3 : 2 * ((n:ℝ) + 1 + 1) - 1 + (x ^ 2 * tanhB n x - (2 * n + 3) * tanhB (n + 1) x) / tanhB (n + 1) x
      = x ^ 2 * tanhB n x / tanhB (n + 1) x := by
    field_simp; ring
  rw [e3]
  field_simp

theorem tanhR_one {x : ℝ} (hx : 0 < x) : x / tanhR 1 x = tanh x := by
  have h0 := sinh_pos_iff.2 hx
  have e : tanhR 1 x = x * cosh x / sinh x := by
    simp only [tanhR, Nat.sub_self, tanhB]
    push_cast; field_simp; ring
  rw [e, tanh_eq_sinh_div_cosh]
  have := cosh_pos x
  field_simp

theorem tanhR_ge (d : ℕ) (_hd : 1 ≤ d) {x : ℝ} (hx : 0 < x) : 2 * (d:ℝ) - 1 ≤ tanhR d x := by
  have h0 := tanhB_pos (d - 1) hx
  have h1 := tanhB_pos d hx
  have := div_pos h1 h0
  unfold tanhR; linarith

section
variable {K : Type*} [Field K] [LinearOrder K] [IsStrictOrderedRing K]

/-- the truncated tails -/
def thT (s : K) (m d : ℕ) : K := cfT (fun _ => (1:K)) (-s) m d

omit [LinearOrder K] [IsStrictOrderedRing K] in
theorem thT_zero (s : K) (d : ℕ) : thT s 0 d = 2 * d - 1 := rfl
omit [LinearOrder K] [IsStrictOrderedRing K] in
theorem thT_succ (s : K) (m d : ℕ) : thT s (m + 1) d = 2 * d - 1 + s / thT s m (d + 1) := by
  simp only [thT, cfT]; ring

theorem thT_ge (s : K) (h0 : 0 ≤ s) : ∀ m d : ℕ, 1 ≤ d → 2 * (d:K) - 1 ≤ thT s m d
  | 0, d, _ => le_rfl
  | m + 1, d, hd => by
    have hd' : (1:K) ≤ d := by exact_mod_cast hd
    have ih := thT_ge s h0 m (d + 1) (by omega)
    push_cast at ih
    rw [thT_succ]
    have := div_nonneg h0 (show (0:K) ≤ thT s m (d + 1) by linarith)
    linarith

theorem thT_pos (s : K) (h0 : 0 ≤ s) (m d : ℕ) (hd : 1 ≤ d) : 0 < thT s m d := by
  have := thT_ge s h0 m d hd
  have : (1:K) ≤ d := by exact_mod_cast hd
  linarith

theorem thT_le (s : K) (h0 : 0 ≤ s) (m d : ℕ) (hd : 1 ≤ d) : thT s m d ≤ 2 * d - 1 + s := by
  cases m with
  | zero => rw [thT_zero]; linarith
  | succ m =>
    have h := thT_ge s h0 m (d + 1) (by omega)
    have hd' : (1:K) ≤ d := by exact_mod_cast hd
    push_cast at h
    rw [thT_succ]
    have := div_le_self h0 (show (1:K) ≤ thT s m (d + 1) by linarith)
    linarith

theorem thT_mono {s X : K} (h0 : 0 ≤ s) (h1 : s ≤ X) : ∀ m d : ℕ, 1 ≤ d →
    thT s m d ≤ thT X m d ∧ s * thT X m d ≤ X * thT s m d
  | 0, d, hd => by
    have hd' : (1:K) ≤ d := by exact_mod_cast hd
    exact ⟨le_rfl, mul_le_mul_of_nonneg_right h1 (by rw [thT_zero]; linarith)⟩
  | m + 1, d, hd => by
    have hd' : (1:K) ≤ d := by exact_mod_cast hd
    obtain ⟨a, b⟩ := thT_mono h0 h1 m (d + 1) (by omega)
    have p := thT_pos s h0 m (d + 1) (by omega)
    have q := thT_pos X (h0.trans h1) m (d + 1) (by omega)
    rw [thT_succ, thT_succ]
    have e1 : s / thT s m (d + 1) ≤ X / thT X m (d + 1) := by
      rw [div_le_div_iff₀ p q]; exact b
    refine ⟨by linarith, ?_⟩
    have e2 : s * (X / thT X m (d + 1)) ≤ X * (s / thT s m (d + 1)) := by
      rw [← mul_div_assoc, ← mul_div_assoc, mul_comm X s]
      exact div_le_div_of_nonneg_left (mul_nonneg h0 (h0.trans h1)) p a
    have e3 : s * (2 * (d:K) - 1) ≤ X * (2 * d - 1) := mul_le_mul_of_nonneg_right h1 (by linarith)
    linarith

/-- bound of the relative truncation error -/
def thE (X : K) : ℕ → ℕ → K
  | 0, d => X / ((2 * d + 1) * (2 * d - 1))
  | m + 1, d => (1 - (2 * d - 1) / thT X (m + 1) d) * thE X m (d + 1)

/-- bound of the rounding error, in unit roundoffs -/
def thC (X : K) : ℕ → ℕ → K
  | 0, _ => 0
  | m + 1, d => (1 - (2 * d - 1) / thT X (m + 1) d) * (100001 / 100000 * thC X m (d + 1) + 2) + 1

theorem thF_nonneg {X : K} (h0 : 0 ≤ X) (m d : ℕ) (hd : 1 ≤ d) : 0 ≤ 1 - (2 * d - 1) / thT X m d ∧ 1 - (2 * d - 1) / thT X m d ≤ 1 := by
  have hd' : (1:K) ≤ d := by exact_mod_cast hd
  have := thT_ge X h0 m d hd
  constructor
  · rw [sub_nonneg]; exact div_le_one_of_le₀ this (by linarith)
  · have := div_nonneg (show (0:K) ≤ 2 * d - 1 by linarith) (show 0 ≤ thT X m d by linarith)
    linarith

theorem thE_nonneg {X : K} (h0 : 0 ≤ X) : ∀ m d : ℕ, 1 ≤ d → 0 ≤ thE X m d
  | 0, d, hd => by
    have hd' : (1:K) ≤ d := by exact_mod_cast hd
    exact div_nonneg h0 (mul_nonneg (by linarith) (by linarith))
  | m + 1, d, hd => mul_nonneg (thF_nonneg h0 _ _ hd).1 (thE_nonneg h0 m (d + 1) (by omega))

theorem thC_bounds {X : K} (h0 : 0 ≤ X) : ∀ m d : ℕ, 1 ≤ d → m ≤ 60 → 0 ≤ thC X m d ∧ thC X m d ≤ 4 * m
  | 0, d, hd, _ => by simp [thC]
  | m + 1, d, hd, hm => by
    obtain ⟨a, b⟩ := thC_bounds h0 m (d + 1) (by omega) (by omega)
    obtain ⟨p, q⟩ := thF_nonneg h0 (m + 1) d hd
    rw [thC]
    have hm : (m:K) ≤ 60 := by exact_mod_cast (show m ≤ 60 by omega)
    have hn : (0:K) ≤ 100001 / 100000 * thC X m (d + 1) + 2 := by positivity
    refine ⟨by positivity, ?_⟩
    have := mul_le_mul_of_nonneg_right q hn
    push_cast
    linarith

private theorem step_aux2 {a k p q e M t : K} (ha : 0 ≤ a) (hk : 0 ≤ k) (hp : 0 < p) (hpq : p ≤ q) (hM0 : 0 < M)
    (hM : a + k / q ≤ M) (he0 : 0 ≤ e) (h : q - p ≤ e * p) (ht : t = a + k / q) :
    (a + k / p) - t ≤ (1 - a / M) * e * t := by
  subst ht
  have hq : 0 < q := hp.trans_le hpq
  have e1 : (a + k / p) - (a + k / q) = k / q * ((q - p) / p) := by field_simp; ring
  have h' : (q - p) / p ≤ e := by rw [div_le_iff₀ hp]; exact h
  have kq0 : 0 ≤ k / q := div_nonneg hk hq.le
  rw [e1]
  have t1 : k / q ≤ (1 - a / M) * (a + k / q) := by
    have : a / M * (a + k / q) ≤ a := by
      rw [div_mul_eq_mul_div, div_le_iff₀ hM0]; exact mul_le_mul_of_nonneg_left hM ha
    linarith
  calc _ ≤ k / q * e := mul_le_mul_of_nonneg_left h' kq0
    _ ≤ (1 - a / M) * (a + k / q) * e := mul_le_mul_of_nonneg_right t1 he0
    _ = _ := by ring

end

/-- the truncated tail against the exact tail -/
theorem thT_tail {x X : ℝ} (hx : 0 < x) (h1 : x ^ 2 ≤ X) : ∀ m d : ℕ, 1 ≤ d →
    |thT (x ^ 2) m d - tanhR d x| ≤ thE X m d * min (thT (x ^ 2) m d) (tanhR d x)
  | 0, d, hd => by
    have hd' : (1:ℝ) ≤ d := by exact_mod_cast hd
    have hge := tanhR_ge d hd hx
    have hge1 := tanhR_ge (d + 1) (by omega) hx
    push_cast at hge1
    rw [thT_zero, min_eq_left hge, tanhR_rec d hd hx, thE]
    have p : (0:ℝ) < 2 * d + 1 := by linarith
    have q : (0:ℝ) < 2 * d - 1 := by linarith
    have e2 : X / ((2 * (d:ℝ) + 1) * (2 * d - 1)) * (2 * d - 1) = X / (2 * d + 1) := by field_simp
    have hR : 0 < tanhR (d + 1) x := by linarith
    rw [e2, show 2 * (d:ℝ) - 1 - (2 * d - 1 + x ^ 2 / tanhR (d + 1) x) = -(x ^ 2 / tanhR (d + 1) x) by ring, abs_neg,
      abs_of_nonneg (by positivity)]
    exact div_le_div₀ ((sq_nonneg x).trans h1) h1 p (by linarith)
  | m + 1, d, hd => by
    have hd' : (1:ℝ) ≤ d := by exact_mod_cast hd
    have ih := thT_tail hx h1 m (d + 1) (by omega)
    have h0 := sq_nonneg x
    have hX := h0.trans h1
    have p0 := thT_pos (x ^ 2) h0 m (d + 1) (by omega)
    have q0 : 0 < tanhR (d + 1) x := by
      have := tanhR_ge (d + 1) (by omega) hx
      push_cast at this; linarith
    have m1 := (thT_mono h0 h1 (m + 1) d hd).1
    have he := thE_nonneg hX m (d + 1) (by omega)
    have hM0 : 0 < thT X (m + 1) d := thT_pos X hX _ _ hd
    have ha : (0:ℝ) ≤ 2 * d - 1 := by linarith
    have e1 := thT_succ (x ^ 2) m d
    have e2 := tanhR_rec d hd hx
    rw [thE]
    rcases le_total (thT (x ^ 2) m (d + 1)) (tanhR (d + 1) x) with h | h
    · rw [min_eq_left h, abs_sub_comm, abs_of_nonneg (by linarith)] at ih
      have k : x ^ 2 / tanhR (d + 1) x ≤ x ^ 2 / thT (x ^ 2) m (d + 1) := div_le_div_of_nonneg_left h0 p0 h
      rw [min_eq_right (by linarith), abs_of_nonneg (by linarith)]
      have := step_aux2 ha h0 p0 h hM0 (by rw [e1] at m1; linarith) he ih e2
      rwa [← e1] at this
    · rw [min_eq_right h, abs_of_nonneg (by linarith)] at ih
      have k : x ^ 2 / thT (x ^ 2) m (d + 1) ≤ x ^ 2 / tanhR (d + 1) x := div_le_div_of_nonneg_left h0 q0 h
      rw [min_eq_left (by linarith), abs_sub_comm, abs_of_nonneg (by linarith)]
      have := step_aux2 ha h0 q0 h hM0 (by rw [e1] at m1; linarith) he ih e1
      rwa [← e2] at this

theorem thT_cast (s : ℚ) (m d : ℕ) : ((thT s m d : ℚ) : ℝ) = thT (s : ℝ) m d := by
  unfold thT; rw [cfT_cast]; simp

theorem thE_cast (X : ℚ) : ∀ m d : ℕ, ((thE X m d : ℚ) : ℝ) = thE (X : ℝ) m d
  | 0, d => by simp [thE]
  | m + 1, d => by simp [thE, thE_cast X m (d + 1), thT_cast]

/-- truncation error of the continued fraction -/
theorem tanh_cf_trunc {x X : ℝ} (hx : 0 < x) (h : x ^ 2 ≤ X) (m : ℕ) :
    |x / thT (x ^ 2) m 1 - tanh x| ≤ thE X m 1 * tanh x := by
  have hT := thT_pos (x ^ 2) (sq_nonneg x) m 1 le_rfl
  have hR : 0 < tanhR 1 x := by have := tanhR_ge 1 le_rfl hx; push_cast at this; linarith
  have k := thT_tail hx h m 1 le_rfl
  have hE := thE_nonneg ((sq_nonneg x).trans h) m 1 le_rfl
  rw [← tanhR_one hx]
  have e : x / thT (x ^ 2) m 1 - x / tanhR 1 x = -(x * (thT (x ^ 2) m 1 - tanhR 1 x) / (thT (x ^ 2) m 1 * tanhR 1 x)) := by
    field_simp; ring
  rw [e, abs_neg, abs_div, abs_mul, abs_of_pos hx, abs_of_pos (mul_pos hT hR)]
  rw [div_le_iff₀ (mul_pos hT hR)]
  have k2 : |thT (x ^ 2) m 1 - tanhR 1 x| ≤ thE X m 1 * thT (x ^ 2) m 1 :=
    k.trans (mul_le_mul_of_nonneg_left (min_le_left _ _) hE)
  calc x * |thT (x ^ 2) m 1 - tanhR 1 x| ≤ x * (thE X m 1 * thT (x ^ 2) m 1) := mul_le_mul_of_nonneg_left k2 hx.le
    _ = _ := by field_simp

end Gcem
