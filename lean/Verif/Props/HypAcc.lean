import Verif.Props.ExpAcc
import Verif.Props.TrigAcc
import Mathlib.Analysis.SpecialFunctions.Trigonometric.DerivHyp

/-!
# Accuracy of sinh and cosh
-/

namespace Gcem
open FV
variable {f : Fmt}

/-- the two roundings of `(a ± b)/2` -/
theorem half_round {a b : ℚ} {A B E C : ℝ} (hA : 0 < A) (hB : 0 < B) (hC : 2 * C = A + B) (hC1 : 1 ≤ C) (hE : E ≤ 1 / 100)
    (ha : |(a:ℝ) - A| ≤ E * A) (hb : |(b:ℝ) - B| ≤ E * B) (σ : ℚ) (hσ : σ = 1 ∨ σ = -1) :
    |((rnd f (rnd f (a + σ * b) / 2) : ℚ) : ℝ) - (A + σ * B) / 2| ≤ (E + 21 / 10 * uro f) * C ∧
    |((a + σ * b : ℚ) : ℝ)| ≤ 101 / 100 * (2 * C) ∧ |((rnd f (a + σ * b) / 2 : ℚ) : ℝ)| ≤ 102 / 100 * C := by
  have hu : (0:ℝ) < uro f := by exact_mod_cast uro_pos f
  have hu7 : (uro f:ℝ) ≤ 1 / 10 ^ 7 := by have := (Rat.cast_le (K := ℝ)).2 (uro_le7 f); push_cast at this; exact this
  have hem : ((pow2 f.emin / 2 : ℚ) : ℝ) ≤ uro f / 1000 := by
    have := (Rat.cast_le (K := ℝ)).2 (half_emin_uro f); push_cast at this ⊢; exact this
  have hs : |(σ:ℝ)| = 1 := by rcases hσ with rfl | rfl <;> simp
  have e1 := (Rat.cast_le (K := ℝ)).2 (rnd_err_all (f := f) (a + σ * b))
  have e2 := (Rat.cast_le (K := ℝ)).2 (rnd_err_all (f := f) (rnd f (a + σ * b) / 2))
  generalize hr : rnd f (a + σ * b) = r at *
  generalize hr2 : rnd f (r / 2) = r2 at *
  push_cast at e1 e2 hem ⊢
  generalize (pow2 f.emin : ℝ) = m at *
  have k0 : |((a:ℝ) + σ * b) - (A + σ * B)| ≤ E * (2 * C) := by
    have : ((a:ℝ) + σ * b) - (A + σ * B) = (a - A) + σ * (b - B) := by ring
    rw [this]
    refine (abs_add_le _ _).trans ?_
    rw [abs_mul, hs, one_mul, hC]; linarith
  have k1 : |A + σ * B| ≤ 2 * C := by
    refine (abs_add_le _ _).trans ?_
    rw [abs_mul, hs, one_mul, abs_of_pos hA, abs_of_pos hB]; linarith
  have kE : E * (2 * C) ≤ 1 / 100 * (2 * C) := mul_le_mul_of_nonneg_right hE (by linarith)
  have k2 : |(a:ℝ) + σ * b| ≤ 101 / 100 * (2 * C) := by
    have := abs_sub_abs_le_abs_sub ((a:ℝ) + σ * b) (A + σ * B); linarith
  have k3 : (uro f:ℝ) * |(a:ℝ) + σ * b| ≤ uro f * (101 / 100 * (2 * C)) := mul_le_mul_of_nonneg_left k2 hu.le
  have kC : (uro f:ℝ) * 1 ≤ uro f * C := mul_le_mul_of_nonneg_left hC1 hu.le
  have kC2 : (uro f:ℝ) * C ≤ 1 / 10 ^ 7 * C := mul_le_mul_of_nonneg_right hu7 (by linarith)
  have k4 : |(r:ℝ) / 2| ≤ 102 / 100 * C := by
    have h1 := abs_sub_abs_le_abs_sub (r:ℝ) ((a:ℝ) + σ * b)
    rw [abs_div, abs_of_pos (show (0:ℝ) < 2 by norm_num)]
    linarith
  have k5 : (uro f:ℝ) * |(r:ℝ) / 2| ≤ uro f * (102 / 100 * C) := mul_le_mul_of_nonneg_left k4 hu.le
  refine ⟨?_, k2, k4⟩
  have : (r2:ℝ) - (A + σ * B) / 2 = (r2 - r / 2) + (r - (a + σ * b)) / 2 + (((a:ℝ) + σ * b) - (A + σ * B)) / 2 := by ring
  rw [this]
  refine (abs_add_three _ _ _).trans ?_
  rw [abs_div, abs_div, abs_of_pos (show (0:ℝ) < 2 by norm_num)]
  linarith

theorem cosh_sinh_eq (x : ℝ) : 2 * Real.cosh x = Real.exp x + Real.exp (-x) ∧ 2 * Real.sinh x = Real.exp x - Real.exp (-x) := by
  rw [Real.cosh_eq, Real.sinh_eq]; constructor <;> ring

end Gcem

namespace Gcem.Props
open Gcem FV
variable {f : Fmt}

theorem expErr_small {m : ℝ} (hm : m ≤ 11400) : 104 * (1 / 2 ^ f.prec) + (m + 7) * (1 / 2 ^ 62) ≤ (1:ℝ) / 100 := by
  rw [← uro_eq]
  have hu7 : (uro f:ℝ) ≤ 1 / 10 ^ 7 := by have := (Rat.cast_le (K := ℝ)).2 (uro_le7 f); push_cast at this; exact this
  norm_num at hu7 ⊢; linarith

/-- C64: error of sinh and cosh, relative to the hyperbolic cosine -/
theorem C64_accuracy (hf : f.exact = false) (x : ℚ) (z : Bool) (hx : Valid (fin x z : FV f)) (h : |x| ≤ expMin f.ty) :
    ∃ s sw c cw, sinh (fin x z : FV f) = .ok (fin s sw) ∧ cosh (fin x z : FV f) = .ok (fin c cw) ∧
      |(s:ℝ) - Real.sinh x| ≤ (1061 / 10 * (1 / 2 ^ f.prec) + (|(x:ℝ)| + 7) * (1 / 2 ^ 62)) * Real.cosh x ∧
      |(c:ℝ) - Real.cosh x| ≤ (1061 / 10 * (1 / 2 ^ f.prec) + (|(x:ℝ)| + 7) * (1 / 2 ^ 62)) * Real.cosh x := by
  have hC1 := Real.one_le_cosh (x:ℝ)
  have hu : (0:ℝ) < uro f := by exact_mod_cast uro_pos f
  obtain ⟨w1, e1⟩ := is_i (f := f) (n := 1) (by norm_num)
  obtain ⟨w0, e0⟩ := is_i (f := f) (n := 0) (by norm_num)
  have hnan : ¬ (is_nan (fin x z : FV f) = true) := by simp
  unfold sinh sinh_check cosh cosh_compute
  simp only [if_neg hnan]
  by_cases hg : (limMin : FV f) > fabs (fin x z)
  · simp only [if_pos hg]
    rw [limMin_gt_fabs] at hg
    have hlt := (Rat.cast_lt (K := ℝ)).2 (hg.trans (minNormal_lt_uro f))
    push_cast at hlt
    obtain ⟨hc2, hs2⟩ := cosh_sinh_eq (x:ℝ)
    have hu7 : (uro f:ℝ) ≤ 1 / 10 ^ 7 := by have := (Rat.cast_le (K := ℝ)).2 (uro_le7 f); push_cast at this; exact this
    have h1 : |(x:ℝ)| ≤ 1 := by norm_num at hu7; linarith
    obtain ⟨p1, p2⟩ := abs_le.1 (Real.abs_exp_sub_one_le h1)
    obtain ⟨p3, p4⟩ := abs_le.1 (Real.abs_exp_sub_one_le (x := -x) (by rwa [abs_neg]))
    rw [abs_neg] at p3 p4
    have hX := abs_nonneg (x:ℝ)
    have hB : 2 * |(x:ℝ)| ≤ (1061 / 10 * (1 / 2 ^ f.prec) + (|(x:ℝ)| + 7) * (1 / 2 ^ 62)) * Real.cosh x := by
      rw [← uro_eq]
      refine le_trans ?_ (le_mul_of_one_le_right (by positivity) hC1)
      have : 0 ≤ (|(x:ℝ)| + 7) * (1 / 2 ^ 62) := by positivity
      linarith
    refine ⟨0, w0, 1, w1, by rw [e0]; simp, by rw [e1]; simp, le_trans ?_ hB, le_trans ?_ hB⟩
    · rw [Rat.cast_zero]; exact abs_le.2 ⟨by linarith, by linarith⟩
    · rw [Rat.cast_one]; exact abs_le.2 ⟨by linarith, by linarith⟩
  simp only [if_neg hg]
  have hle : (expMin f.ty : ℚ) ≤ expMax f.ty := by cases f.ty <;> norm_num [expMin, expMax]
  obtain ⟨l1, l2⟩ := abs_le.1 h
  obtain ⟨a, ea, a0, ha⟩ := C33_accuracy hf x z hx l1 (l2.trans hle)
  obtain ⟨b, eb, b0, hb⟩ := C33_accuracy hf (-x) (if x = 0 then !z else z) (neg_fin (f := f) x z ▸ hx.neg) (by linarith) (by linarith)
  rw [neg_fin, ea, eb]
  have i2 : Is (i 2 : FV f) 2 := by simpa using is_i (f := f) (n := 2) (by norm_num)
  push_cast at hb
  rw [abs_neg] at hb
  have hb1 : (expMin f.ty : ℝ) ≤ 11400 := by cases f.ty <;> norm_num [expMin]
  have hx' : |(x:ℝ)| ≤ expMin f.ty := by exact_mod_cast h
  have hE := expErr_small (f := f) (hx'.trans hb1)
  obtain ⟨hc2, hs2⟩ := cosh_sinh_eq (x:ℝ)
  have hle' : (expMin f.ty : ℝ) ≤ expMax f.ty := by exact_mod_cast hle
  have q1 := exp_le_of (f := f) (y := x) ((le_abs_self _).trans (hx'.trans hle'))
  have q2 := exp_le_of (f := f) (y := -x) ((neg_le_abs _).trans (hx'.trans hle'))
  have hCb : Real.cosh x ≤ 7 / 10 * (pow2 f.emax : ℝ) := by linarith
  have hbig : (1:ℝ) * 2 ^ 100 ≤ pow2 f.emax := by
    have : (2:ℚ) ^ 100 ≤ pow2 f.emax := by
      rw [← pow2_nat]; exact pow2_le (by have := emax_large f; norm_num at this ⊢; linarith)
    have := (Rat.cast_le (K := ℝ)).2 this; push_cast at this; linarith
  have hsum : ∀ σ : ℚ, σ = 1 ∨ σ = -1 → overflows f (rnd f (a + σ * b)) = false ∧
      overflows f (rnd f (rnd f (a + σ * b) / 2)) = false := by
    intro σ hσ
    obtain ⟨-, n1, n2⟩ := half_round (f := f) (Real.exp_pos _) (Real.exp_pos _) hc2 hC1 hE ha hb σ hσ
    constructor
    · refine nov_big ?_
      have h2C : 2 * Real.cosh x ≤ 7 / 10 * (pow2 f.emax : ℝ) + 1 := by
        rcases le_total 0 (x:ℝ) with h0 | h0
        · have : Real.exp (-(x:ℝ)) ≤ 1 := Real.exp_le_one_iff.2 (by linarith)
          linarith
        · have : Real.exp (x:ℝ) ≤ 1 := Real.exp_le_one_iff.2 h0
          linarith
      have : ((|a + σ * b| : ℚ) : ℝ) ≤ ((3 / 4 * pow2 f.emax : ℚ) : ℝ) := by
        push_cast at n1 ⊢; linarith
      exact_mod_cast this
    · refine nov_big ?_
      have : ((|rnd f (a + σ * b) / 2| : ℚ) : ℝ) ≤ ((3 / 4 * pow2 f.emax : ℚ) : ℝ) := by
        push_cast at n2 ⊢; linarith
      exact_mod_cast this
  obtain ⟨n1, n2⟩ := hsum 1 (.inl rfl)
  obtain ⟨n3, n4⟩ := hsum (-1) (.inr rfl)
  obtain ⟨r1, -⟩ := half_round (f := f) (Real.exp_pos _) (Real.exp_pos _) hc2 hC1 hE ha hb 1 (.inl rfl)
  obtain ⟨r2, -⟩ := half_round (f := f) (Real.exp_pos _) (Real.exp_pos _) hc2 hC1 hE ha hb (-1) (.inr rfl)
  rw [one_mul] at n1 n2 r1
  rw [neg_one_mul, ← sub_eq_add_neg] at n3 n4 r2
  obtain ⟨cw, ec⟩ := (((is_fin a false).add (is_fin b false) n1).div i2 (by norm_num) n2 : Is (_ : FV f) _)
  obtain ⟨sw, es⟩ := (((is_fin a false).sub (is_fin b false) n3).div i2 (by norm_num) n4 : Is (_ : FV f) _)
  refine ⟨_, sw, _, cw, congrArg _ es, congrArg _ ec, ?_, ?_⟩
  · have : Real.sinh x = (Real.exp x + ((-1 : ℚ) : ℝ) * Real.exp (-x)) / 2 := by push_cast; linarith
    rw [this, ← uro_eq]
    rw [← uro_eq] at r2
    exact r2.trans (le_of_eq (by ring))
  · have : Real.cosh x = (Real.exp x + ((1 : ℚ) : ℝ) * Real.exp (-x)) / 2 := by push_cast; linarith
    conv_lhs => rw [this]
    rw [← uro_eq]
    rw [← uro_eq] at r1
    exact r1.trans (le_of_eq (by ring))

/-- C64: the bound cannot be relative to the hyperbolic sine: at `2^-60` the result is `0` in `double`. -/
theorem C64_sinh_not_relative : ¬ ∀ (x : ℚ) (z : Bool), Valid (fin x z : FV binary64) → minNormal binary64 ≤ |x| → |x| ≤ 1 →
    ∃ s w, sinh (fin x z : FV binary64) = .ok (fin s w) ∧ |(s:ℝ) - Real.sinh x| ≤ 1 / 2 * |Real.sinh x| := by
  intro h
  obtain ⟨s, w, e, hb⟩ := h (1 / 2 ^ 60) false (by decide +kernel) (by decide +kernel) (by norm_num [abs_of_pos])
  have e' : sinh (fin (1 / 2 ^ 60) false : FV binary64) = .ok (fin 0 false) := by decide +kernel
  rw [e'] at e
  injection e with e
  injection e with e1 e2
  subst e1
  rw [Rat.cast_zero, zero_sub, abs_neg] at hb
  have hpos : 0 < Real.sinh ((1 / 2 ^ 60 : ℚ) : ℝ) := Real.sinh_pos_iff.2 (by push_cast; positivity)
  rw [abs_of_pos hpos] at hb
  linarith

/-- `2.5` in `double`, `-86` in `float` -/
example : ∃ s sw c cw, sinh (fin (5 / 2) false : FV binary64) = .ok (fin s sw) ∧ cosh (fin (5 / 2) false : FV binary64) = .ok (fin c cw) ∧
      |(s:ℝ) - Real.sinh (5 / 2 : ℚ)| ≤ (1061 / 10 * (1 / 2 ^ 53) + (|((5 / 2 : ℚ):ℝ)| + 7) * (1 / 2 ^ 62)) * Real.cosh (5 / 2 : ℚ) ∧
      |(c:ℝ) - Real.cosh (5 / 2 : ℚ)| ≤ (1061 / 10 * (1 / 2 ^ 53) + (|((5 / 2 : ℚ):ℝ)| + 7) * (1 / 2 ^ 62)) * Real.cosh (5 / 2 : ℚ) :=
  C64_accuracy (f := binary64) rfl _ _ (by decide +kernel) (by decide +kernel)
example : ∃ s sw c cw, sinh (fin (-86) false : FV binary32) = .ok (fin s sw) ∧ cosh (fin (-86) false : FV binary32) = .ok (fin c cw) ∧
      |(s:ℝ) - Real.sinh (-86 : ℚ)| ≤ (1061 / 10 * (1 / 2 ^ 24) + (|((-86 : ℚ):ℝ)| + 7) * (1 / 2 ^ 62)) * Real.cosh (-86 : ℚ) ∧
      |(c:ℝ) - Real.cosh (-86 : ℚ)| ≤ (1061 / 10 * (1 / 2 ^ 24) + (|((-86 : ℚ):ℝ)| + 7) * (1 / 2 ^ 62)) * Real.cosh (-86 : ℚ) :=
  C64_accuracy (f := binary32) rfl _ _ (by decide +kernel) (by decide +kernel)

end Gcem.Props
