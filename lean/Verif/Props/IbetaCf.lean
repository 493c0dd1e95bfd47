import Verif.Props.IgammaLow
import Verif.Analysis.IncBeta
import Verif.Analysis.IbetaTable

/-!
# The continued fraction of incomplete_beta in floating point

The parameters are divided into cells of `a` (`b` from one half to ten); in each cell lower bounds for the two sequences of
Lentz's algorithm, and bounds for their relative errors, are computed by a recursion in the kernel.
-/

namespace Gcem.Props
open Gcem FV
variable {f : Fmt}

/-! ### bounds for the coefficients -/

open IB

structure IbCell (a b z : ℝ) (c : ℕ) : Prop where
  c2 : 2 ≤ c
  c40 : c < 40
  a0 : c / 4 ≤ a
  a1 : a ≤ (c + ibW c) / 4
  b0 : 1 / 2 ≤ b
  b1 : b ≤ 10
  z0 : 0 < z
  z1 : z < 1
  zs : z * (a + b + 2) ≤ 100001 / 100000 * (a + 1)

theorem frac_mono {x y p q : ℝ} (hx : 0 ≤ x) (hxy : x ≤ y) (_hp : 0 ≤ p) (hpq : p ≤ q) (hq : 0 < q) : (x + p) / (x + q) ≤ (y + p) / (y + q) := by
  rw [div_le_div_iff₀ (by linarith) (by linarith)]
  nlinarith

namespace IbCell
variable {a b z : ℝ} {c : ℕ}

theorem ca (h : IbCell a b z c) : 1 / 2 ≤ a := by
  have := h.a0
  have h2 : (2:ℝ) ≤ c := by exact_mod_cast h.c2
  linarith

theorem wpos (_h : IbCell a b z c) : (1:ℝ) ≤ ibW c ∧ (ibW c : ℝ) ≤ 2 := by
  unfold ibW; split <;> norm_num

theorem zle (h : IbCell a b z c) : z ≤ ibZ c := by
  have ha := h.ca
  have hs := h.zs
  have hb := h.b0
  have hz := h.z0
  have h1 : z ≤ 100001 / 100000 * ((a + 1) / (a + 5 / 2)) := by
    rw [← mul_div_assoc, le_div_iff₀ (by linarith)]
    have : z * (a + 5 / 2) ≤ z * (a + b + 2) := mul_le_mul_of_nonneg_left (by linarith) hz.le
    linarith
  have h2 := frac_mono (p := 1) (q := 5 / 2) (by linarith) h.a1 (by norm_num) (by norm_num) (by norm_num)
  unfold ibZ
  push_cast
  have e : ((c:ℝ) + ibW c + 4) / (c + ibW c + 10) = ((c + ibW c) / 4 + 1) / ((c + ibW c) / 4 + 5 / 2) := by
    have := h.wpos
    rw [div_eq_div_iff (by positivity) (by positivity)]; ring
  rw [e]
  linarith

theorem rho (h : IbCell a b z c) {k : ℕ} (hk : 1 ≤ k) : z * (a + b + k) ≤ 100001 / 100000 * ((a + 1) * ibRho c k) := by
  have ha := h.ca
  have hb := h.b0
  have hb1 := h.b1
  have hs := h.zs
  have hz := h.z0
  have h0 := h.a0
  have h1 := h.a1
  obtain ⟨w1, w2⟩ := h.wpos
  have hc2 : (2:ℝ) ≤ c := by exact_mod_cast h.c2
  have hρ : (a + b + k) ≤ (ibRho c k : ℝ) * (a + b + 2) := by
    unfold ibRho
    by_cases hk1 : k = 1
    · subst hk1
      rw [if_pos rfl]
      push_cast
      rw [div_mul_eq_mul_div, le_div_iff₀ (by linarith)]
      nlinarith
    · rw [if_neg hk1]
      have hk2 : (2:ℝ) ≤ k := by exact_mod_cast (show 2 ≤ k by omega)
      push_cast
      rw [div_mul_eq_mul_div, le_div_iff₀ (by linarith)]
      nlinarith [mul_nonneg (show (0:ℝ) ≤ k - 2 by linarith) (show 0 ≤ a + b - (c / 4 + 1 / 2) by linarith)]
  have hρ0 : (0:ℝ) < ibRho c k := by
    by_contra hc
    push Not at hc
    have : (ibRho c k : ℝ) * (a + b + 2) ≤ 0 := mul_nonpos_of_nonpos_of_nonneg hc (by linarith)
    have : (0:ℝ) ≤ k := Nat.cast_nonneg k
    linarith
  calc z * (a + b + k) ≤ z * ((ibRho c k : ℝ) * (a + b + 2)) := mul_le_mul_of_nonneg_left hρ hz.le
    _ = (z * (a + b + 2)) * ibRho c k := by ring
    _ ≤ (100001 / 100000 * (a + 1)) * ibRho c k := mul_le_mul_of_nonneg_right hs hρ0.le
    _ = _ := by ring

theorem rho_pos (h : IbCell a b z c) (k : ℕ) : (0:ℝ) < ibRho c k := by
  obtain ⟨w1, w2⟩ := h.wpos
  unfold ibRho
  split <;> push_cast <;> positivity

theorem neg_al (h : IbCell a b z c) {j : ℕ} (hj : 1 ≤ j) : -al a b z j ≤ ibN c j := by
  have ha := h.ca
  have h1 := h.a1
  have hz := h.z0
  obtain ⟨w1, w2⟩ := h.wpos
  have hc2 : (2:ℝ) ≤ c := by exact_mod_cast h.c2
  rcases Nat.even_or_odd' j with ⟨k, rfl | rfl⟩
  · have hk : 1 ≤ k := by omega
    have hk' : (1:ℝ) ≤ k := by exact_mod_cast hk
    rw [al_even, neg_neg]
    unfold ibN
    rw [if_pos (by omega), show 2 * k / 2 = k by omega]
    push_cast
    have hr := h.rho hk
    have hp := h.rho_pos k
    have f1 := frac_mono (p := 1) (q := 2 * k + 1) (by linarith) h1 (by norm_num) (by linarith) (by linarith)
    have f2 := frac_mono (p := k) (q := 2 * k) (by linarith) h1 (by linarith) (by linarith) (by linarith)
    have f3 := mul_le_mul f1 f2 (by positivity) (by positivity)
    generalize (ibRho c k : ℝ) = ρ at *
    generalize hA : ((c:ℝ) + ibW c) / 4 = A at *
    have hA' : (c:ℝ) + ibW c = 4 * A := by linarith
    rw [hA']
    have hA0 : 0 < A := by linarith
    have e : ((4 * A + 4) * (4 * A + 2 * (2 * k))) / ((4 * A + 4 * (2 * k)) * (4 * A + 4 * (2 * k) + 4)) = (A + 1) / (A + (2 * k + 1)) * ((A + k) / (A + 2 * k)) := by
      rw [div_mul_div_comm, div_eq_div_iff (by positivity) (by positivity)]; ring
    rw [e]
    calc z * (a + k) * (a + b + k) / ((a + 2 * k) * (a + 2 * k + 1)) = (z * (a + b + k)) * (a + k) / ((a + 2 * k) * (a + 2 * k + 1)) := by ring
      _ ≤ (100001 / 100000 * ((a + 1) * ρ)) * (a + k) / ((a + 2 * k) * (a + 2 * k + 1)) := by gcongr
      _ = 100001 / 100000 * ((a + 1) / (a + (2 * k + 1)) * ((a + k) / (a + 2 * k)) * ρ) := by field_simp; ring
      _ ≤ _ := by gcongr
  · rw [al_odd]
    have hZ := h.zle
    have hb := h.b0
    have h0 := h.a0
    have hk : (0:ℝ) ≤ k := Nat.cast_nonneg k
    unfold ibN
    rw [if_neg (by omega)]
    push_cast
    have hD : 0 < (a + 2 * ((k:ℝ) + 1) - 1) * (a + 2 * (k + 1)) := mul_pos (by linarith) (by linarith)
    have hD2 : 0 < ((c:ℝ) + 4 * (2 * k + 1)) * (c + 4 * (2 * k + 1) + 4) := by positivity
    rw [← neg_div, div_le_iff₀ hD]
    have hx : ((c:ℝ) + 4 * (2 * k + 1)) * (c + 4 * (2 * k + 1) + 4) ≤ 16 * ((a + 2 * ((k:ℝ) + 1) - 1) * (a + 2 * (k + 1))) := by
      have g1 : (c:ℝ) + 4 * (2 * k + 1) ≤ 4 * (a + 2 * ((k:ℝ) + 1) - 1) := by linarith
      have g2 : (c:ℝ) + 4 * (2 * k + 1) + 4 ≤ 4 * (a + 2 * (k + 1)) := by linarith
      have := mul_le_mul g1 g2 (by positivity) (by linarith)
      linarith
    have hZ0 : (0:ℝ) < ibZ c := lt_of_lt_of_le hz hZ
    have s1 : -(z * (k + 1) * (b - (k + 1))) ≤ ibZ c * ((k + 1) * (k + 1 / 2)) := by
      have : z * ((k + 1) * (k + 1 - b)) ≤ z * ((k + 1) * (k + 1 / 2)) := by gcongr; linarith
      have : z * (((k:ℝ) + 1) * (k + 1 / 2)) ≤ ibZ c * ((k + 1) * (k + 1 / 2)) := by gcongr
      linarith
    have s2 : 4 * (((k:ℝ) + 1) * (k + 1 / 2)) ≤ ((2 * k + 1 + 1) * (2 * k + 1) * 4) / ((c + 4 * (2 * k + 1)) * (c + 4 * (2 * k + 1) + 4)) *
        (4 * ((a + 2 * ((k:ℝ) + 1) - 1) * (a + 2 * (k + 1)))) := by
      rw [div_mul_eq_mul_div, le_div_iff₀ hD2]
      have : 0 ≤ ((k:ℝ) + 1) * (k + 1 / 2) := by positivity
      nlinarith [mul_le_mul_of_nonneg_left hx this]
    have s3 := mul_le_mul_of_nonneg_left s2 hZ0.le
    linarith

theorem pos_al (h : IbCell a b z c) (j : ℕ) : al a b z j ≤ ibP c j := by
  have ha := h.ca
  have hz := h.z0
  have hb := h.b0
  have hc2 : (2:ℝ) ≤ c := by exact_mod_cast h.c2
  rcases Nat.even_or_odd' j with ⟨k, rfl | rfl⟩
  · have hk : (0:ℝ) ≤ k := Nat.cast_nonneg k
    rw [al_even]
    unfold ibP
    rw [if_pos (by omega)]
    push_cast
    rw [neg_nonpos]; positivity
  · rw [al_odd]
    have hZ := h.zle
    have hb1 := h.b1
    have h0 := h.a0
    have hk : (0:ℝ) ≤ k := Nat.cast_nonneg k
    have hD : 0 < (a + 2 * ((k:ℝ) + 1) - 1) * (a + 2 * (k + 1)) := mul_pos (by linarith) (by linarith)
    have hD2 : 0 < ((c:ℝ) + 4 * (2 * k + 1)) * (c + 4 * (2 * k + 1) + 4) := by positivity
    have hZ0 : (0:ℝ) < ibZ c := lt_of_lt_of_le hz hZ
    unfold ibP
    by_cases h9 : 9 ≤ k
    · rw [if_pos (by omega)]
      push_cast
      have h9' : (9:ℝ) ≤ k := by exact_mod_cast h9
      refine div_nonpos_of_nonpos_of_nonneg ?_ hD.le
      exact mul_nonpos_of_nonneg_of_nonpos (by positivity) (by linarith)
    · rw [if_neg (by omega)]
      push_cast
      have h9' : (k:ℝ) ≤ 8 := by exact_mod_cast (show k ≤ 8 by omega)
      rw [div_le_iff₀ hD]
      have hx : ((c:ℝ) + 4 * (2 * k + 1)) * (c + 4 * (2 * k + 1) + 4) ≤ 16 * ((a + 2 * ((k:ℝ) + 1) - 1) * (a + 2 * (k + 1))) := by
        have g1 : (c:ℝ) + 4 * (2 * k + 1) ≤ 4 * (a + 2 * ((k:ℝ) + 1) - 1) := by linarith
        have g2 : (c:ℝ) + 4 * (2 * k + 1) + 4 ≤ 4 * (a + 2 * (k + 1)) := by linarith
        have := mul_le_mul g1 g2 (by positivity) (by linarith)
        linarith
      have h9k : 0 ≤ 9 - (k:ℝ) := by linarith
      have s1 : z * (k + 1) * (b - (k + 1)) ≤ ibZ c * ((k + 1) * (9 - k)) := by
        have t1 : z * ((k + 1) * (b - (k + 1))) ≤ z * ((k + 1) * (9 - k)) :=
          mul_le_mul_of_nonneg_left (mul_le_mul_of_nonneg_left (by linarith) (by linarith)) hz.le
        have t2 : z * (((k:ℝ) + 1) * (9 - k)) ≤ ibZ c * ((k + 1) * (9 - k)) := by gcongr
        linarith
      have s2 : 4 * (((k:ℝ) + 1) * (9 - k)) ≤ ((2 * k + 1 + 1) * (19 - (2 * k + 1)) * 4) / ((c + 4 * (2 * k + 1)) * (c + 4 * (2 * k + 1) + 4)) *
          (4 * ((a + 2 * ((k:ℝ) + 1) - 1) * (a + 2 * (k + 1)))) := by
        rw [div_mul_eq_mul_div, le_div_iff₀ hD2]
        have : 0 ≤ ((k:ℝ) + 1) * (9 - k) := by positivity
        nlinarith [mul_le_mul_of_nonneg_left hx this]
      have s3 := mul_le_mul_of_nonneg_left s2 hZ0.le
      linarith

theorem om (h : IbCell a b z c) {j : ℕ} (hj : 2 ≤ j) : -(ibH c j : ℝ) ≤ al a b z j / W a b z (j + 1) := by
  have ha := h.ca
  have h1 := h.a1
  have h0 := h.a0
  have hz := h.z0
  have hb := h.b0
  have hWp := W_pos (b := b) (show 0 < a by linarith) hz h.z1 (j + 1)
  obtain ⟨w1, w2⟩ := h.wpos
  have hc2 : (2:ℝ) ≤ c := by exact_mod_cast h.c2
  rw [le_div_iff₀ hWp]
  rcases Nat.even_or_odd' j with ⟨k, rfl | rfl⟩
  · have hk : 1 ≤ k := by omega
    have hk' : (1:ℝ) ≤ k := by exact_mod_cast hk
    have hW := W_odd_ge (b := b) (show 0 < a by linarith) hz h.z1 k
    rw [al_even]
    unfold ibH
    rw [if_pos (by omega), show 2 * k / 2 = k by omega]
    push_cast
    have hr := h.rho hk
    have hp := h.rho_pos k
    have f1 := frac_mono (p := 1) (q := 2 * k) (by linarith) h1 (by norm_num) (by linarith) (by linarith)
    generalize (ibRho c k : ℝ) = ρ at *
    generalize hA : ((c:ℝ) + ibW c) / 4 = A at *
    have hA' : (c:ℝ) + ibW c = 4 * A := by linarith
    rw [hA']
    have hA0 : 0 < A := by linarith
    have e : (4 * A + 4) / (4 * A + 4 * (2 * k)) = (A + 1) / (A + 2 * k) := by
      rw [div_eq_div_iff (by positivity) (by positivity)]; ring
    rw [e, neg_mul, neg_le_neg_iff]
    calc z * (a + k) * (a + b + k) / ((a + 2 * k) * (a + 2 * k + 1)) = (z * (a + b + k)) * (a + k) / ((a + 2 * k) * (a + 2 * k + 1)) := by ring
      _ ≤ (100001 / 100000 * ((a + 1) * ρ)) * (a + k) / ((a + 2 * k) * (a + 2 * k + 1)) := by gcongr
      _ = 100001 / 100000 * ((a + 1) / (a + 2 * k) * ρ) * ((a + k) / (a + 2 * k + 1)) := by field_simp
      _ ≤ 100001 / 100000 * ((A + 1) / (A + 2 * k) * ρ) * W a b z (2 * k + 1) := by gcongr
  · have hk : 1 ≤ k := by omega
    have hk' : (1:ℝ) ≤ k := by exact_mod_cast hk
    have hW := W_even_ge (b := b) (show 0 < a by linarith) hz h.z1 k
    rw [show 2 * k + 1 + 1 = 2 * k + 2 by ring] at hWp ⊢
    rw [al_odd]
    unfold ibH
    rw [if_neg (by omega)]
    push_cast
    have hZ := h.zle
    have hZ0 : (0:ℝ) < ibZ c := lt_of_lt_of_le hz hZ
    have hD : 0 < (a + 2 * ((k:ℝ) + 1) - 1) * (a + 2 * (k + 1)) := mul_pos (by linarith) (by linarith)
    have s1 : (k + 1) * (-(ibZ c * (k + 1 / 2))) ≤ z * (k + 1) * (b - (k + 1)) := by
      have t1 : z * (k + 1 - b) ≤ z * (k + 1 / 2) := by gcongr; linarith
      have t2 : z * ((k:ℝ) + 1 / 2) ≤ ibZ c * (k + 1 / 2) := by gcongr
      have := mul_le_mul_of_nonneg_left (t1.trans t2) (show 0 ≤ (k:ℝ) + 1 by linarith)
      linarith
    have s2 : (k + 1 / 2 : ℝ) / (a + 2 * ((k:ℝ) + 1) - 1) ≤ 2 * (2 * k + 1) / (c + 4 * (2 * k + 1)) := by
      rw [div_le_div_iff₀ (by linarith) (by positivity)]
      nlinarith
    have hE : 0 < a + 2 * ((k:ℝ) + 1) - 1 := by linarith
    calc -(ibZ c * (2 * (2 * k + 1) / (c + 4 * (2 * k + 1)))) * W a b z (2 * k + 2)
        ≤ -(ibZ c * ((k + 1 / 2 : ℝ) / (a + 2 * ((k:ℝ) + 1) - 1))) * ((k + 1) / (a + 2 * (k + 1))) := by
          rw [neg_mul, neg_mul, neg_le_neg_iff]
          gcongr
      _ = ((k + 1) * (-(ibZ c * (k + 1 / 2)))) / ((a + 2 * ((k:ℝ) + 1) - 1) * (a + 2 * (k + 1))) := by field_simp
      _ ≤ _ := div_le_div_of_nonneg_right s1 hD.le

theorem start (h : IbCell a b z c) : (8:ℝ) / (c + ibW c + 48) - 1 / 100000 ≤ 1 + al a b z 0 ∧ al a b z 0 ≤ 0 := by
  have ha := h.ca
  have h1 := h.a1
  have hz := h.z0
  have hb := h.b0
  have hb1 := h.b1
  have hs := h.zs
  have e := al_even a b z 0
  simp only [mul_zero, Nat.cast_zero, add_zero] at e
  rw [e]
  obtain ⟨w1, w2⟩ := h.wpos
  constructor
  · have e1 : z * a * (a + b) / (a * (a + 1)) = z * (a + b) / (a + 1) := by field_simp
    rw [e1]
    have t1 : z * (a + b) / (a + 1) ≤ 100001 / 100000 * ((a + b) / (a + b + 2)) := by
      rw [div_le_iff₀ (by linarith), show 100001 / 100000 * ((a + b) / (a + b + 2)) * (a + 1) = 100001 / 100000 * ((a + b) * (a + 1)) / (a + b + 2) by ring,
        le_div_iff₀ (by linarith)]
      nlinarith [mul_le_mul_of_nonneg_right hs (show 0 ≤ a + b by linarith)]
    have t2 : (a + b) / (a + b + 2) = 1 - 2 / (a + b + 2) := by field_simp; ring
    have t3 : (8:ℝ) / (c + ibW c + 48) ≤ 2 / (a + b + 2) := by
      rw [div_le_div_iff₀ (by positivity) (by linarith)]; linarith
    have t4 : 0 ≤ 2 / (a + b + 2) := by positivity
    have t5 : 2 / (a + b + 2) ≤ 1 := by rw [div_le_one (by linarith)]; linarith
    rw [t2] at t1
    linarith
  · rw [neg_nonpos]; positivity

/-- the denominators after the first step: a sharper bound -/
theorem first (h : IbCell a b z c) : ((c:ℝ) + 4) / (c + 8) ≤ 1 + al a b z 1 / (1 + al a b z 0) ∧ ((c:ℝ) + 4) / (c + 8) ≤ 1 + al a b z 1 / 1 := by
  have ha := h.ca
  have h0 := h.a0
  have hz := h.z0
  have hz1 := h.z1
  have hb := h.b0
  have hs := h.zs
  have e := al_even a b z 0
  have e' := al_odd a b z 0
  simp only [mul_zero, Nat.cast_zero, add_zero, zero_add, mul_one] at e e'
  have hc2 : (2:ℝ) ≤ c := by exact_mod_cast h.c2
  have m := frac_mono (x := c / 4) (y := a) (p := 1) (q := 2) (by positivity) h0 (by norm_num) (by norm_num) (by norm_num)
  have e2 : ((c:ℝ) + 4) / (c + 8) = (c / 4 + 1) / (c / 4 + 2) := by
    rw [div_eq_div_iff (by positivity) (by positivity)]; ring
  rw [e2]
  have hst := h.start.1
  have ht0 : 0 < 1 + al a b z 0 := by
    refine lt_of_lt_of_le ?_ hst
    obtain ⟨w1, w2⟩ := h.wpos
    have hc : (c:ℝ) < 40 := by exact_mod_cast h.c40
    have : (8:ℝ) / 100 ≤ 8 / (c + ibW c + 48) := by
      apply div_le_div_of_nonneg_left (by norm_num) (by positivity) (by linarith)
    linarith
  have key : ∀ t : ℝ, 0 < t → t ≤ 1 → z * (1 - b) ≤ (a + 1) * t → (a + 1) / (a + 2) ≤ 1 + al a b z 1 / t := by
    intro t ht ht1 hk
    rw [e']
    have : (a + 1) / (a + 2) = 1 - 1 / (a + 2) := by field_simp; ring
    rw [this, sub_eq_add_neg, add_le_add_iff_left]
    have e3 : z * (b - 1) / ((a + 2 - 1) * (a + 2)) / t = -(z * (1 - b) / ((a + 1) * t) * (1 / (a + 2))) := by
      rw [show a + 2 - 1 = a + 1 by ring]; field_simp; ring
    rw [e3, neg_le_neg_iff]
    refine mul_le_of_le_one_left (by positivity) ?_
    rw [div_le_one (by positivity)]; exact hk
  have hza : z * a ≤ a := mul_le_of_le_one_left (by linarith) hz1.le
  constructor
  · refine m.trans (key _ ht0 (by linarith [h.start.2]) ?_)
    rw [e]
    have e4 : (a + 1) * (1 + -(z * a * (a + b) / (a * (a + 1)))) = a + 1 - z * (a + b) := by field_simp; ring
    rw [e4]
    nlinarith
  · refine m.trans (key 1 one_pos le_rfl ?_)
    nlinarith

end IbCell

/-! ### the coefficients in floating point -/

theorem rl_addk {v : FV f} {q c : ℚ} (hv : Rl v q c) (h1 : 1 / 2 ^ 120 ≤ q) (h2 : q ≤ 2 ^ 100) (hc : c ≤ 8000) {k : ℕ} (hk : k ≤ 1000) :
    Rl (v + i (k:ℤ)) (q + k) (c + 1) := by
  have n1 := hv.nonneg
  obtain ⟨hq, -, a, i1, b1⟩ := hv
  have hk0 : (0:ℚ) ≤ k := Nat.cast_nonneg k
  have hk1 : (k:ℚ) ≤ 1000 := by exact_mod_cast hk
  have hw := wro_pos f
  have ik : Is (i (k:ℤ) : FV f) (k:ℚ) := by
    have := is_i (f := f) (n := k) (by rw [abs_le]; constructor <;> omega)
    push_cast at this; exact this
  have h : |a + k - (q + k)| ≤ c * wro f * (q + k) := by
    rw [add_sub_add_right_eq_sub]
    refine b1.trans ?_
    have : 0 ≤ c * wro f := by positivity
    exact mul_le_mul_of_nonneg_left (by linarith) this
  obtain ⟨o, r⟩ := rl_round (f := f) (by linarith) (by norm_num at h2 ⊢; linarith) (by linarith) h
  exact ⟨by linarith, by linarith, _, i1.add ik o, r⟩

/-- a coefficient of even index -/
theorem ib_coef_even {a b z : ℚ} {wa wb wz : Bool} (a1 : 1 / 2 ≤ a) (a2 : a ≤ 16) (b1 : 1 / 2 ≤ b) (b2 : b ≤ 16)
    (z1 : 1 / 2 ^ 100 ≤ z) (z2 : z ≤ 1) {k : ℕ} (hk : k ≤ 200) :
    ∃ α : ℚ, Is (incomplete_beta_coef_even (fin a wa : FV f) (fin b wb) (fin z wz) (k:ℤ)) α ∧
      |(α:ℝ) - al a b z (2 * k)| ≤ 101 / 10 * uro f * |al a b z (2 * k)| + uro f / 700 := by
  have hu := uro_pos_real f
  have hk0 : (0:ℚ) ≤ k := Nat.cast_nonneg k
  have hk1 : (k:ℚ) ≤ 200 := by exact_mod_cast hk
  have hz0 : 0 < z := lt_of_lt_of_le (by norm_num) z1
  have ra := (is_fin (f := f) a wa).rl (by linarith)
  have rb := (is_fin (f := f) b wb).rl (by linarith)
  have rz := (is_fin (f := f) z wz).rl hz0
  have r1 := rl_addk ra (le_trans (by norm_num) a1) (a2.trans (by norm_num)) (by norm_num) (show k ≤ 1000 by omega)
  have rab := ra.add rb (C := 0) (c'' := 1) (by norm_num; linarith) (by norm_num; linarith) (by norm_num) (by norm_num) (by norm_num)
  have r2 := rl_addk rab (by norm_num; linarith) (by norm_num; linarith) (by norm_num) (show k ≤ 1000 by omega)
  have r3 := rl_addk ra (le_trans (by norm_num) a1) (a2.trans (by norm_num)) (by norm_num) (show 2 * k ≤ 1000 by omega)
  have r4 := rl_addk r3 (by push_cast; norm_num; linarith) (by push_cast; norm_num; linarith) (by norm_num) (show 1 ≤ 1000 by norm_num)
  have l1 : 1 / 2 ≤ a + k := by linarith
  have l2 : 1 ≤ a + b + k := by linarith
  have p1 : 1 / 2 ^ 100 * (1 / 2) ≤ z * (a + k) := mul_le_mul z1 l1 (by norm_num) hz0.le
  have q1 : z * (a + k) ≤ 1 * 216 := mul_le_mul z2 (by linarith) (by linarith) (by norm_num)
  have r5 := rz.mul r1 (c'' := 2) (le_trans (by norm_num) p1) (q1.trans (by norm_num)) (by norm_num) (by norm_num)
  have p2 : 1 / 2 ^ 100 * (1 / 2) * 1 ≤ z * (a + k) * (a + b + k) := mul_le_mul p1 l2 (by norm_num) (by positivity)
  have q2 : z * (a + k) * (a + b + k) ≤ 1 * 216 * 232 := mul_le_mul q1 (by linarith) (by linarith) (by norm_num)
  have r6 := r5.mul r2 (c'' := 50001 / 10000) (le_trans (by norm_num) p2) (q2.trans (by norm_num)) (by norm_num) (by norm_num)
  have d1 : (1 / 2) * (3 / 2) ≤ (a + (2 * k : ℕ)) * (a + (2 * k : ℕ) + (1:ℕ)) := by
    push_cast
    exact mul_le_mul (by linarith) (by linarith) (by norm_num) (by linarith)
  have d2 : (a + (2 * k : ℕ)) * (a + (2 * k : ℕ) + (1:ℕ)) ≤ 416 * 417 := by
    push_cast
    exact mul_le_mul (by linarith) (by linarith) (by linarith) (by norm_num)
  have r7 := r3.mul r4 (c'' := 40001 / 10000) (le_trans (by norm_num) d1) (d2.trans (by norm_num)) (by norm_num) (by norm_num)
  have r8 := r6.div r7 (c'' := 10001 / 1000) (by
      rw [le_div_iff₀ (lt_of_lt_of_le (by norm_num) d1)]
      refine le_trans ?_ p2
      refine (mul_le_mul_of_nonneg_left d2 (by norm_num)).trans (by norm_num)) (by
      rw [div_le_iff₀ (lt_of_lt_of_le (by norm_num) d1)]
      refine q2.trans ?_
      have := mul_le_mul_of_nonneg_left d1 (show (0:ℚ) ≤ 2 ^ 120 by norm_num)
      refine le_trans ?_ this
      norm_num) (by norm_num) (by norm_num)
  obtain ⟨hp, -, α, ⟨w, iα⟩, bα⟩ := r8
  refine ⟨-α, ?_, ?_⟩
  · unfold incomplete_beta_coef_even
    rw [FV.neg_mul', FV.neg_mul', FV.neg_div']
    have e2 : i (2 * (k:ℤ)) = (i ((2 * k : ℕ) : ℤ) : FV f) := by push_cast; rfl
    rw [e2, show (i 1 : FV f) = i ((1:ℕ):ℤ) from rfl, iα]
    exact Is.neg (is_fin _ _)
  · have bα' := (Rat.cast_le (K := ℝ)).2 bα
    have hp' : (0:ℝ) < _ := Rat.cast_pos.2 hp
    rw [al_even]
    unfold wro at bα'
    push_cast at bα' hp' ⊢
    rw [abs_neg, abs_of_pos hp', show -(α:ℝ) - -(z * (a + k) * (a + b + k) / ((a + 2 * k) * (a + 2 * k + 1))) =
      -(α - z * (a + k) * (a + b + k) / ((a + 2 * k) * (a + 2 * k + 1))) by ring, abs_neg]
    generalize (z:ℝ) * (a + k) * (a + b + k) / ((a + 2 * k) * (a + 2 * k + 1)) = y at *
    refine bα'.trans ?_
    have := mul_pos hu hp'
    linarith

theorem ib_odd_real {u X B D x β d n q : ℝ} (hu : 0 < u) (hu7 : u ≤ 1 / 10 ^ 7) (hX : 0 < X) (hD : 15 / 4 ≤ D)
    (hx : |x - X| ≤ 1002 / 1000 * u * X) (hβ : |β - B| ≤ u * |B|) (hd : |d - D| ≤ 471 / 100 * u * D)
    (hn : |n - x * β| ≤ u * |x * β| + u / 1000) (hq : |q - n / d| ≤ u * |n / d| + u / 1000) :
    |q - X * B / D| ≤ 101 / 10 * u * |X * B / D| + u / 700 := by
  have hD0 : 0 < D := by linarith
  have hu2 : u * u ≤ 1 / 10 ^ 7 * u := by gcongr
  norm_num only at hu7 hu2
  have b0 : 0 ≤ |B| := abs_nonneg B
  -- product
  have hXB : |X * B| = X * |B| := by rw [abs_mul, abs_of_pos hX]
  have e1 : |x * β - X * B| ≤ 2003 / 1000 * u * |X * B| := by
    rw [hXB, show x * β - X * B = (x - X) * B + X * (β - B) + (x - X) * (β - B) by ring]
    refine (abs_add_three _ _ _).trans ?_
    rw [abs_mul, abs_mul, abs_mul, abs_of_pos hX]
    have m1 := mul_le_mul_of_nonneg_right hx b0
    have m2 := mul_le_mul_of_nonneg_left hβ hX.le
    have m3 := mul_le_mul hx hβ (abs_nonneg _) (by positivity)
    have m4 := mul_le_mul_of_nonneg_right hu2 (mul_nonneg hX.le b0)
    have : 0 ≤ u * (X * |B|) := by positivity
    linarith
  generalize X * B = Y at *
  have hy0 : 0 ≤ |Y| := abs_nonneg Y
  have hy1 : u * |Y| ≤ 1 / 10 ^ 7 * |Y| := mul_le_mul_of_nonneg_right (by norm_num only at hu7 ⊢; exact hu7) hy0
  have e2 : |x * β| ≤ 1001 / 1000 * |Y| := by
    have := abs_add_le (x * β - Y) Y
    rw [sub_add_cancel] at this
    norm_num only at hy1
    linarith
  have e3 : |n - Y| ≤ 301 / 100 * u * |Y| + u / 1000 := by
    have := abs_sub_le n (x * β) Y
    have h2 := mul_le_mul_of_nonneg_left e2 hu.le
    have : 0 ≤ u * |Y| := by positivity
    linarith
  have e4 : |n| ≤ 1001 / 1000 * |Y| + u / 1000 := by
    have := abs_add_le (n - Y) Y
    rw [sub_add_cancel] at this
    norm_num only at hy1
    linarith
  -- quotient
  have hd0 : 9999 / 10000 * D ≤ d := by
    have := (abs_le.1 hd).1
    have : u * D ≤ 1 / 10 ^ 7 * D := by gcongr; norm_num only at hu7 ⊢; exact hu7
    norm_num only at this
    linarith
  have hdp : 0 < d := by linarith
  have e5 : |n / d - Y / D| ≤ 785 / 100 * u * (|Y| / D) + u / 3000 := by
    have : n / d - Y / D = ((n - Y) * D - Y * (d - D)) / (d * D) := by field_simp; ring
    rw [this, abs_div, abs_of_pos (mul_pos hdp hD0), div_le_iff₀ (mul_pos hdp hD0)]
    have k1 := abs_sub ((n - Y) * D) (Y * (d - D))
    rw [abs_mul, abs_mul, abs_of_pos hD0] at k1
    have k2 := mul_le_mul_of_nonneg_right e3 hD0.le
    have k3 := mul_le_mul_of_nonneg_left hd hy0
    have k4 : (785 / 100 * u * (|Y| / D) + u / 3000) * (9999 / 10000 * D * D) ≤ (785 / 100 * u * (|Y| / D) + u / 3000) * (d * D) := by
      gcongr
    have k5 : (785 / 100 * u * (|Y| / D) + u / 3000) * (9999 / 10000 * D * D) = 785 / 100 * (9999 / 10000) * (u * |Y| * D) + u / 3000 * (9999 / 10000) * D * D := by
      field_simp
    have k6 : u / 3000 * (9999 / 10000) * D * (15 / 4) ≤ u / 3000 * (9999 / 10000) * D * D := by gcongr
    have k7 : 0 ≤ u * D := by positivity
    have k8 : 0 ≤ u * |Y| * D := by positivity
    linarith
  have e6 : |n / d| ≤ 1001 / 1000 * (|Y| / D) + u := by
    have := abs_add_le (n / d - Y / D) (Y / D)
    rw [sub_add_cancel, abs_div Y, abs_of_pos hD0] at this
    have k : 0 ≤ |Y| / D := by positivity
    have k2 : u * (|Y| / D) ≤ 1 / 10 ^ 7 * (|Y| / D) := mul_le_mul_of_nonneg_right (by norm_num only at hu7 ⊢; exact hu7) k
    norm_num only at k2
    linarith
  have e7 := mul_le_mul_of_nonneg_left e6 hu.le
  have e8 := abs_sub_le q (n / d) (Y / D)
  rw [abs_div Y, abs_of_pos hD0]
  have k : 0 ≤ u * (|Y| / D) := by positivity
  linarith

/-- a coefficient of odd index -/
theorem ib_coef_odd {a b z : ℚ} {wa wb wz : Bool} (hb : Valid (fin b wb : FV f)) (a1 : 1 / 2 ≤ a) (a2 : a ≤ 16) (b1 : 1 / 2 ≤ b) (b2 : b ≤ 16)
    (z1 : 1 / 2 ^ 100 ≤ z) (z2 : z ≤ 1) {k : ℕ} (hk : k ≤ 200) :
    ∃ α : ℚ, Is (incomplete_beta_coef_odd (fin a wa : FV f) (fin b wb) (fin z wz) ((k + 1 : ℕ):ℤ)) α ∧
      |(α:ℝ) - al a b z (2 * k + 1)| ≤ 101 / 10 * uro f * |al a b z (2 * k + 1)| + uro f / 700 := by
  have hu := uro_pos_real f
  have hu7 := uro7_real f
  have hp : (16777216:ℤ) ≤ 2 ^ f.prec := two_pow_prec f
  have hk0 : (0:ℚ) ≤ k := Nat.cast_nonneg k
  have hk1 : (k:ℚ) ≤ 200 := by exact_mod_cast hk
  have hz0 : 0 < z := lt_of_lt_of_le (by norm_num) z1
  have ra := (is_fin (f := f) a wa).rl (by linarith)
  have rz := (is_fin (f := f) z wz).rl hz0
  have iK : Is (i ((k + 1 : ℕ):ℤ) : FV f) ((k + 1 : ℕ):ℚ) := by
    have := is_i (f := f) (n := ((k + 1 : ℕ):ℤ)) (by rw [abs_le]; constructor <;> omega)
    rw [Int.cast_natCast] at this; exact this
  have hrK : Rep f ((k + 1 : ℕ):ℚ) := by
    have := rep_int (f := f) (n := ((k + 1 : ℕ):ℤ)) (by rw [abs_le]; constructor <;> omega)
    rw [Int.cast_natCast] at this; exact this
  have i1' : Is (i 1 : FV f) (1:ℚ) := by
    have := is_i (f := f) (n := 1) (by norm_num)
    push_cast at this; exact this
  have rK := iK.rl (by push_cast; linarith)
  have p1 : 1 / 2 ^ 100 * 1 ≤ z * ((k + 1 : ℕ):ℚ) := mul_le_mul z1 (by push_cast; linarith) (by norm_num) hz0.le
  have q1 : z * ((k + 1 : ℕ):ℚ) ≤ 1 * 201 := mul_le_mul z2 (by push_cast; linarith) (by push_cast; linarith) (by norm_num)
  have r1 := rz.mul rK (c'' := 1) (le_trans (by norm_num) p1) (q1.trans (by norm_num)) (by norm_num) (by norm_num)
  have r3 := rl_addk ra (le_trans (by norm_num) a1) (a2.trans (by norm_num)) (by norm_num) (show 2 * (k + 1) ≤ 1000 by omega)
  have r4 := r3.sub (i1'.rl one_pos) (C := 5 / 3) (c'' := 8 / 3) (by push_cast; norm_num; linarith) (by push_cast; norm_num; linarith)
    (by push_cast; linarith) (by norm_num) (by norm_num)
  have d1 : (3 / 2) * (5 / 2) ≤ (a + (2 * (k + 1) : ℕ) - 1) * (a + (2 * (k + 1) : ℕ)) := by
    push_cast
    exact mul_le_mul (by linarith) (by linarith) (by norm_num) (by linarith)
  have d2 : (a + (2 * (k + 1) : ℕ) - 1) * (a + (2 * (k + 1) : ℕ)) ≤ 417 * 418 := by
    push_cast
    exact mul_le_mul (by linarith) (by linarith) (by linarith) (by norm_num)
  have r5 := r4.mul r3 (c'' := 47 / 10) (le_trans (by norm_num) d1) (d2.trans (by norm_num)) (by norm_num) (by norm_num)
  obtain ⟨hX, -, x, ix, bx⟩ := r1
  obtain ⟨hD, -, d, id, bd⟩ := r5
  have e := rnd_add_real hb.rep hrK.neg
  rw [← sub_eq_add_neg, Rat.cast_neg, ← sub_eq_add_neg] at e
  have hbk : |b - ((k + 1 : ℕ):ℚ)| ≤ 300 := by push_cast; rw [abs_le]; constructor <;> linarith
  have iβ := (is_fin (f := f) b wb).sub iK (nov (hbk.trans (by norm_num)))
  have hβ2 : |rnd f (b - ((k + 1 : ℕ):ℚ))| ≤ 300 := by
    have r300 : Rep f (300:ℚ) := by
      have := rep_int (f := f) (n := 300) (by rw [abs_le]; constructor <;> omega)
      push_cast at this; exact this
    rw [abs_le] at hbk ⊢
    exact ⟨le_rnd_of_rep r300.neg hbk.1, rnd_le_of_rep r300 hbk.2⟩
  generalize hβ : rnd f (b - ((k + 1 : ℕ):ℚ)) = β at *
  obtain ⟨x1, x2⟩ := rl_bounds (f := f) hX (by norm_num) bx
  obtain ⟨dd1, dd2⟩ := rl_bounds (f := f) hD (by norm_num) bd
  have hx0 : 0 < x := by linarith
  have hd0 : 1 ≤ d := by linarith
  have hxβ : |x * β| ≤ 1000 * 300 := by
    rw [abs_mul, abs_of_pos hx0]
    exact mul_le_mul (by linarith) hβ2 (abs_nonneg _) (by norm_num)
  have ii := ix.mul iβ (nov (hxβ.trans (by norm_num)))
  have en := rnd_all_real f (x * β)
  have hn2 : |rnd f (x * β)| ≤ 2 ^ 20 := by
    have r20 : Rep f (2 ^ 20 : ℚ) := by
      have := rep_int (f := f) (n := 2 ^ 20) (by rw [abs_le]; constructor <;> norm_num <;> omega)
      push_cast at this; exact this
    rw [abs_le] at hxβ ⊢
    exact ⟨le_rnd_of_rep r20.neg (by norm_num at hxβ ⊢; linarith [hxβ.1]), rnd_le_of_rep r20 (by norm_num at hxβ ⊢; linarith [hxβ.2])⟩
  generalize hn : rnd f (x * β) = n at *
  have hnd : |n / d| ≤ 2 ^ 20 := by
    rw [abs_div, abs_of_pos (by linarith : 0 < d), div_le_iff₀ (by linarith)]
    nlinarith [abs_nonneg n]
  have iq := ii.div id (by linarith) (nov (hnd.trans (by norm_num)))
  have eq := rnd_all_real f (n / d)
  refine ⟨rnd f (n / d), ?_, ?_⟩
  · unfold incomplete_beta_coef_odd
    have e2 : i (2 * (((k + 1 : ℕ)) : ℤ)) = (i ((2 * (k + 1) : ℕ) : ℤ) : FV f) := by push_cast; rfl
    rw [e2]
    exact iq
  · generalize rnd f (n / d) = q at *
    rw [al_odd]
    have bx' := (Rat.cast_le (K := ℝ)).2 bx
    have bd' := (Rat.cast_le (K := ℝ)).2 bd
    have hX' : (0:ℝ) < _ := Rat.cast_pos.2 hX
    have d1' := (Rat.cast_le (K := ℝ)).2 d1
    unfold wro at bx' bd'
    push_cast at bx' bd' hX' d1' en eq e ⊢
    refine ib_odd_real hu hu7 hX' (by linarith) (bx'.trans ?_) e (bd'.trans ?_) en eq
    · have := mul_pos hu hX'; linarith
    · have := mul_pos hu (show (0:ℝ) < (a + 2 * (k + 1) - 1) * (a + 2 * (k + 1)) by linarith); linarith

theorem ib_coef {a b z : ℚ} {wa wb wz : Bool} (hb : Valid (fin b wb : FV f)) (a1 : 1 / 2 ≤ a) (a2 : a ≤ 16) (b1 : 1 / 2 ≤ b) (b2 : b ≤ 16)
    (z1 : 1 / 2 ^ 100 ≤ z) (z2 : z ≤ 1) {j : ℕ} (hj : j ≤ 300) :
    ∃ α : ℚ, Is (incomplete_beta_coef (fin a wa : FV f) (fin b wb) (fin z wz) j) α ∧
      |(α:ℝ) - al a b z j| ≤ 101 / 10 * uro f * |al a b z j| + uro f / 700 := by
  unfold incomplete_beta_coef
  rcases Nat.even_or_odd' j with ⟨k, rfl | rfl⟩
  · rw [if_pos (by omega), show 2 * k / 2 = k by omega]
    exact ib_coef_even a1 a2 b1 b2 z1 z2 (by omega)
  · rw [if_neg (by omega), show (2 * k + 1 + 1) / 2 = k + 1 by omega]
    exact ib_coef_odd hb a1 a2 b1 b2 z1 z2 (by omega)

end Gcem.Props
