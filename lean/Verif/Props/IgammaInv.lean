import Verif.Props.ErfInvAcc
import Verif.Props.IgammaLow
import Verif.Props.IbetaAcc
import Verif.Props.PowAcc

/-! # C92: `incomplete_gamma_inv(1, p)`, the quantile of the exponential distribution -/

namespace Gcem.Props
open FV

variable {f : Fmt}

/-- dividing a perturbed number -/
theorem gi_div {a a' b D c u t τ : ℝ} (hD : 1 / 40 ≤ D) (u0 : 0 ≤ u) (hu : u ≤ 1 / 1000) (h : |a' - a| ≤ c * u * |a| + t) (t0 : 0 ≤ t)
    (hb : |b - a' / D| ≤ u * |a' / D| + τ) :
    |b - a / D| ≤ (c + 1 + c * u) * u * |a / D| + 41 * t + τ := by
  have D0 : 0 < D := by linarith
  have h1 : |a' / D - a / D| ≤ c * u * |a / D| + 40 * t := by
    rw [← sub_div, abs_div, abs_div, abs_of_pos D0]
    have : t / D ≤ 40 * t := by rw [div_le_iff₀ D0]; nlinarith
    calc |a' - a| / D ≤ (c * u * |a| + t) / D := by gcongr
      _ = c * u * (|a| / D) + t / D := by ring
      _ ≤ _ := by linarith
  have h2 : |a' / D| ≤ |a / D| + (c * u * |a / D| + 40 * t) := by
    have := abs_add_le (a / D) (a' / D - a / D)
    rw [show a / D + (a' / D - a / D) = a' / D by ring] at this
    linarith
  have h3 : |b - a / D| ≤ |b - a' / D| + |a' / D - a / D| := by
    have := abs_add_le (b - a' / D) (a' / D - a / D)
    rwa [show b - a' / D + (a' / D - a / D) = b - a / D by ring] at this
  have h4 : u * |a' / D| ≤ u * (|a / D| + (c * u * |a / D| + 40 * t)) := by gcongr
  nlinarith [mul_nonneg u0 t0]

/-- slope of the exponential distribution function between two points -/
theorem gi_slope (v y : ℝ) : ∃ h, Real.exp (-y) - Real.exp (-v) = h * (v - y) ∧
    ∀ ρ, |v - y| ≤ ρ → Real.exp (-(y + ρ)) ≤ h ∧ h ≤ Real.exp (-(y - ρ)) := by
  rcases eq_or_ne v y with rfl | hne
  · refine ⟨Real.exp (-v), by ring, fun ρ hρ => ?_⟩
    have : 0 ≤ ρ := le_trans (abs_nonneg _) hρ
    exact ⟨Real.exp_le_exp.2 (by linarith), Real.exp_le_exp.2 (by linarith)⟩
  · have d0 : v - y ≠ 0 := sub_ne_zero.2 hne
    refine ⟨(Real.exp (-y) - Real.exp (-v)) / (v - y), by field_simp, fun ρ hρ => ?_⟩
    have hρ' := abs_le.1 hρ
    have k1 : Real.exp (-v) * (v - y) ≤ Real.exp (-y) - Real.exp (-v) := by
      have e : Real.exp (-y) = Real.exp (-v) * Real.exp (v - y) := by rw [← Real.exp_add]; congr 1; ring
      have := Real.add_one_le_exp (v - y)
      have := Real.exp_pos (-v)
      rw [e]; nlinarith
    have k2 : Real.exp (-y) - Real.exp (-v) ≤ Real.exp (-y) * (v - y) := by
      have e : Real.exp (-v) = Real.exp (-y) * Real.exp (y - v) := by rw [← Real.exp_add]; congr 1; ring
      have := Real.add_one_le_exp (y - v)
      have := Real.exp_pos (-y)
      rw [e]; nlinarith
    have a1 : Real.exp (-(y + ρ)) ≤ Real.exp (-v) := Real.exp_le_exp.2 (by linarith)
    have a2 : Real.exp (-v) ≤ Real.exp (-(y - ρ)) := Real.exp_le_exp.2 (by linarith)
    have ρ0 : 0 ≤ ρ := le_trans (abs_nonneg _) hρ
    have a3 : Real.exp (-(y + ρ)) ≤ Real.exp (-y) := Real.exp_le_exp.2 (by linarith)
    have a4 : Real.exp (-y) ≤ Real.exp (-(y - ρ)) := Real.exp_le_exp.2 (by linarith)
    rcases lt_or_gt_of_ne d0 with hd | hd
    · rw [le_div_iff_of_neg hd, div_le_iff_of_neg hd]
      constructor <;> nlinarith
    · rw [le_div_iff₀ hd, div_le_iff₀ hd]
      constructor <;> nlinarith

/-- bounds for the factor by which one step multiplies the error -/
theorem gi_factor {y w h D g u ρ B κ Eb : ℝ} (hw : |w - y| ≤ ρ) (h1 : Real.exp (-(y + ρ)) ≤ h) (h2 : h ≤ Real.exp (-(y - ρ)))
    (hu : u ≤ 1 / 10 ^ 7) (hD : |D - Real.exp (-w)| ≤ 150 * u * Real.exp (-w))
    (g1 : 7999 / 10000 ≤ g) (g2 : g ≤ 12001 / 10000) (hB : Real.exp (2 * ρ) ≤ B) (B0 : 0 < B)
    (k1 : B * 12003 / 10000 * (1 - κ) ≤ 1) (k2 : B ≤ (1 + κ) * (79988 / 100000)) (hE : Real.exp w ≤ Eb) :
    1 - κ ≤ h / (D * g) ∧ h / (D * g) ≤ 1 + κ ∧ 1 / (D * g) ≤ 12503 / 10000 * Eb ∧ 0 < D := by
  have hw' := abs_le.1 hw
  have Ep := Real.exp_pos (-w)
  have hD' := abs_le.1 hD
  have u' : 150 * u * Real.exp (-w) ≤ 150 / 10 ^ 7 * Real.exp (-w) := by gcongr; linarith
  have D1 : 99998 / 100000 * Real.exp (-w) ≤ D := by linarith
  have D2 : D ≤ 100002 / 100000 * Real.exp (-w) := by linarith
  have D0 : 0 < D := lt_of_lt_of_le (by positivity) D1
  have g0 : 0 < g := by linarith
  have hDg : 0 < D * g := by positivity
  have Dg1 : 79988 / 100000 * Real.exp (-w) ≤ D * g := by nlinarith
  have Dg2 : D * g ≤ 12003 / 10000 * Real.exp (-w) := by nlinarith
  have hh2 : h ≤ B * Real.exp (-w) := by
    refine h2.trans ?_
    calc Real.exp (-(y - ρ)) ≤ Real.exp (2 * ρ + -w) := Real.exp_le_exp.2 (by linarith)
      _ = Real.exp (2 * ρ) * Real.exp (-w) := Real.exp_add _ _
      _ ≤ _ := by gcongr
  have hh1 : Real.exp (-w) ≤ B * h := by
    have : Real.exp (-w) ≤ B * Real.exp (-(y + ρ)) := by
      calc Real.exp (-w) ≤ Real.exp (2 * ρ + -(y + ρ)) := Real.exp_le_exp.2 (by linarith)
        _ = Real.exp (2 * ρ) * Real.exp (-(y + ρ)) := Real.exp_add _ _
        _ ≤ _ := by gcongr
    exact this.trans (by gcongr)
  have h0 : 0 < h := lt_of_lt_of_le (Real.exp_pos _) h1
  refine ⟨?_, ?_, ?_, D0⟩
  · rw [le_div_iff₀ hDg]
    rcases le_or_gt (1 - κ) 0 with c | c
    · exact (mul_nonpos_of_nonpos_of_nonneg c hDg.le).trans h0.le
    · calc (1 - κ) * (D * g) ≤ (1 - κ) * (12003 / 10000 * (B * h)) := by
            have := Dg2.trans (mul_le_mul_of_nonneg_left hh1 (by norm_num : (0:ℝ) ≤ 12003 / 10000))
            exact mul_le_mul_of_nonneg_left this c.le
        _ = (B * 12003 / 10000 * (1 - κ)) * h := by ring
        _ ≤ 1 * h := by gcongr
        _ = h := one_mul _
  · rw [div_le_iff₀ hDg]
    have c : 0 ≤ 1 + κ := by
      by_contra hc
      push Not at hc
      nlinarith
    calc h ≤ B * Real.exp (-w) := hh2
      _ ≤ (1 + κ) * (79988 / 100000) * Real.exp (-w) := by gcongr
      _ = (1 + κ) * (79988 / 100000 * Real.exp (-w)) := by ring
      _ ≤ _ := by gcongr
  · have E1 := Real.exp_pos w
    have hE1 : Real.exp (-w) * Real.exp w = 1 := by rw [← Real.exp_add]; simp
    rw [div_le_iff₀ hDg]
    have : 1 ≤ 12503 / 10000 * Real.exp w * (D * g) := by nlinarith
    refine this.trans ?_
    gcongr

theorem gi_fin {u A e B y z κ : ℝ} (u0 : 0 ≤ u) (hu : u ≤ 1 / 10 ^ 7) (A0 : 0 ≤ A) (e0 : 0 ≤ e) (B0 : 0 ≤ B) (y1 : y ≤ 3) (κ0 : 0 ≤ κ) (κ1 : κ ≤ 1)
    (h1 : B ≤ κ * e + (12503 / 10000 * A + 301 / 100 * u * ((1 + κ) * e + 12503 / 10000 * A) + u / 10 ^ 4))
    (h2 : z ≤ B + u * (y + B)) : z ≤ (κ + 1 / 10 ^ 6) * e + (126 / 100 * A + 4 * u) := by
  have uA : u * A ≤ 1 / 10 ^ 7 * A := by gcongr
  have ue : u * ((1 + κ) * e) ≤ 1 / 10 ^ 7 * (2 * e) := by gcongr; linarith
  have uB : u * B ≤ 1 / 10 ^ 7 * B := by gcongr
  have uy : u * y ≤ u * 3 := by gcongr
  have ke : κ * e ≤ e := by nlinarith
  have hBB : B ≤ κ * e + 7 / 10 ^ 7 * e + 12504 / 10000 * A + u / 10 ^ 4 := by linarith
  nlinarith

/-- one step over the reals, with every rounding error as a hypothesis -/
theorem gi_real {y v w p E S D R g dir v' A Eb u ρ B κ : ℝ} (y0 : 0 ≤ y) (y3 : y ≤ 3) (hv : |v - y| ≤ ρ) (hw : |w - y| ≤ ρ)
    (hp : 1 - Real.exp (-y) = p) (u0 : 0 ≤ u) (hu : u ≤ 1 / 10 ^ 7) (hD : |D - Real.exp (-w)| ≤ 150 * u * Real.exp (-w))
    (D1 : 1 / 40 ≤ D) (g1 : 7999 / 10000 ≤ g) (g2 : g ≤ 12001 / 10000)
    (hB : Real.exp (2 * ρ) ≤ B) (B0 : 0 < B) (k1 : B * 12003 / 10000 * (1 - κ) ≤ 1) (k2 : B ≤ (1 + κ) * (79988 / 100000))
    (κ0 : 0 ≤ κ) (κ1 : κ < 1) (hEb : Real.exp w ≤ Eb)
    (hE : |E - (1 - Real.exp (-v))| ≤ A) (hS : |S - (E - p)| ≤ u * |E - p| + u / 2 ^ 125) (hR : |R - S / D| ≤ u * |S / D| + u / 2 ^ 125)
    (hd : |dir - R / g| ≤ u * |R / g| + u / 2 ^ 125) (hvv : |v' - (v - dir)| ≤ u * |v - dir|) :
    |v' - y| ≤ (κ + 1 / 10 ^ 6) * |v - y| + (126 / 100 * (Eb * A) + 4 * u) := by
  obtain ⟨h, hX, hh⟩ := gi_slope v y
  obtain ⟨h1, h2⟩ := hh ρ hv
  obtain ⟨m1, m2, m3, D0⟩ := gi_factor hw h1 h2 hu hD g1 g2 hB B0 k1 k2 hEb
  have g0 : 0 < g := by linarith
  have A0 : 0 ≤ A := le_trans (abs_nonneg _) hE
  have Eb0 : 0 ≤ Eb := le_trans (Real.exp_pos _).le hEb
  set m := h / (D * g) with hm
  have d1 := gi_div (c := 1) (t := u / 2 ^ 125) D1 u0 (hu.trans (by norm_num)) (by rw [one_mul]; exact hS) (by positivity) hR
  have d2 := gi_div (D := g) (c := 2 + u) (t := 42 * (u / 2 ^ 125)) (by linarith) u0 (hu.trans (by norm_num)) (a := (E - p) / D)
    (by rw [show 2 + u = 1 + 1 + 1 * u by ring]; linarith) (by positivity) hd
  set Q := (E - p) / D / g with hQ
  have q1 : Q - m * (v - y) = (E - (1 - Real.exp (-v))) * (1 / (D * g)) := by
    have : m * (v - y) = (1 - Real.exp (-v) - p) / (D * g) := by
      rw [hm, ← hp, show 1 - Real.exp (-v) - (1 - Real.exp (-y)) = Real.exp (-y) - Real.exp (-v) by ring, hX]; ring
    rw [this, hQ, div_div]; ring
  have q2 : |Q - m * (v - y)| ≤ 12503 / 10000 * (Eb * A) := by
    have i0 : 0 ≤ 1 / (D * g) := by positivity
    rw [q1, abs_mul, abs_of_nonneg i0]
    calc |E - (1 - Real.exp (-v))| * (1 / (D * g)) ≤ A * (12503 / 10000 * Eb) := by gcongr
      _ = _ := by ring
  set A' := Eb * A with hA
  have A0' : 0 ≤ A' := by positivity
  set e := |v - y| with he
  have e0 : 0 ≤ e := abs_nonneg _
  have q3 : |Q| ≤ (1 + κ) * e + 12503 / 10000 * A' := by
    have := abs_add_le (m * (v - y)) (Q - m * (v - y))
    rw [show m * (v - y) + (Q - m * (v - y)) = Q by ring, abs_mul, abs_of_pos (by linarith : 0 < m)] at this
    have : m * e ≤ (1 + κ) * e := by gcongr
    linarith
  have d3 : |dir - Q| ≤ 301 / 100 * u * |Q| + u / 10 ^ 4 := by
    refine d2.trans ?_
    have a1 : (2 + u + 1 + (2 + u) * u) * u * |Q| ≤ 301 / 100 * u * |Q| := by
      gcongr
      exact ei_k u0 hu
    have a2 : 41 * (42 * (u / 2 ^ 125)) + u / 2 ^ 125 ≤ u / 10 ^ 4 := by
      have : 41 * (42 * (u / 2 ^ 125)) + u / 2 ^ 125 = u * (1723 / 2 ^ 125) := by ring
      rw [this, div_eq_mul_one_div u]
      exact mul_le_mul_of_nonneg_left (by norm_num) u0
    linarith
  have d4 : |dir - m * (v - y)| ≤ 12503 / 10000 * A' + 301 / 100 * u * ((1 + κ) * e + 12503 / 10000 * A') + u / 10 ^ 4 := by
    have := abs_add_le (dir - Q) (Q - m * (v - y))
    rw [show dir - Q + (Q - m * (v - y)) = dir - m * (v - y) by ring] at this
    have : 301 / 100 * u * |Q| ≤ 301 / 100 * u * ((1 + κ) * e + 12503 / 10000 * A') := by gcongr
    linarith
  have d5 : |v - dir - y| ≤ κ * e + |dir - m * (v - y)| := by
    have := abs_sub ((1 - m) * (v - y)) (dir - m * (v - y))
    rw [show (1 - m) * (v - y) - (dir - m * (v - y)) = v - dir - y by ring, abs_mul] at this
    have k : |1 - m| ≤ κ := abs_le.2 ⟨by linarith, by linarith⟩
    have : |1 - m| * e ≤ κ * e := by gcongr
    linarith
  set Bd := |v - dir - y| with hBd
  have d6 : |v' - y| ≤ Bd + u * (y + Bd) := by
    have a1 := abs_add_le (v' - (v - dir)) (v - dir - y)
    rw [show v' - (v - dir) + (v - dir - y) = v' - y by ring] at a1
    have a2 := abs_add_le (v - dir - y) y
    rw [show v - dir - y + y = v - dir by ring, abs_of_nonneg y0] at a2
    have : u * |v - dir| ≤ u * (y + Bd) := by gcongr; linarith
    linarith
  have B0' : 0 ≤ Bd := abs_nonneg _
  clear_value A' e Bd Q m
  exact gi_fin u0 hu A0' e0 B0' y3 κ0 κ1.le (d5.trans (by linarith)) d6

theorem exp_valid {x r : FV f} (h : exp x = .ok r) : Valid r := by
  unfold exp exp_check at h
  split_ifs at h
  · cases h; exact valid_nan
  · cases h; exact valid_i _
  · cases h; exact valid_i _
  · cases h; exact valid_inf _
  · cases h; exact valid_div _ _
  · unfold exp_split at h
    cases h1 : find_whole x with
    | error e => rw [h1] at h; cases h
    | ok w =>
      cases h2 : find_fraction x with
      | error e => rw [h1, h2] at h; cases h
      | ok fr => rw [h1, h2] at h; cases h; exact valid_mul _ _

theorem pow_valid {x y r : FV f} (h : pow x y = .ok r) : Valid r := by
  unfold pow pow_check at h
  split_ifs at h
  · cases h; exact valid_nan
  · unfold pow_dbl at h
    cases h1 : log x with
    | error e => rw [h1] at h; cases h
    | ok w => rw [h1] at h; exact exp_valid h

theorem gi_int {z : ℝ} (z0 : 0 ≤ z) : ∫ t in Set.Ioc 0 z, Real.exp (-t) * t ^ ((1:ℝ) - 1) = 1 - Real.exp (-z) := by
  simp only [sub_self, Real.rpow_zero, mul_one]
  rw [← intervalIntegral.integral_of_le z0, intervalIntegral.integral_comp_neg (fun t => Real.exp t), integral_exp]
  simp

theorem gi_M {z : ℝ} (z0 : 0 ≤ z) (z1 : z ≤ 311 / 100) : Real.exp z - 1 ≤ 69 / 10 * z := by
  have hc := convexOn_exp.2
  have h := hc (Set.mem_univ (0:ℝ)) (Set.mem_univ (311 / 100 : ℝ)) (show 0 ≤ 1 - z / (311 / 100) by rw [sub_nonneg, div_le_one (by norm_num)]; exact z1)
    (show 0 ≤ z / (311 / 100) by positivity) (by ring)
  simp only [smul_eq_mul, mul_zero, zero_add, Real.exp_zero, mul_one] at h
  rw [div_mul_cancel₀ _ (by norm_num)] at h
  have e : Real.exp (311 / 100) ≤ 2243 / 100 := by
    have := exp_le_inv (s := 311 / 100) (t := 311 / 100) (B := 2243 / 100) (by norm_num) (by norm_num) (by norm_num) (by decide +kernel)
    push_cast at this; exact this
  have : z / (311 / 100) * Real.exp (311 / 100) ≤ z / (311 / 100) * (2243 / 100) := by gcongr
  linarith

/-- `incomplete_gamma(1, v)` on the range of the iterates -/
theorem gi_val (hf : f.exact = false) {v : ℚ} {z : Bool} (hv : Valid (fin v z : FV f)) (v0 : 1 / 2 ≤ v) (v1 : v ≤ 311 / 100) :
    ∃ E w, incomplete_gamma (i 1 : FV f) (fin v z) = .ok (fin E w) ∧ |(E:ℝ) - (1 - Real.exp (-v))| ≤ 3400 * uro f + 24 / 10 ^ 15 := by
  have o : (i 1 : FV f) = fin 1 false := by simp
  have u0 := uro_pos_real f
  have v0r : (1 / 2 : ℝ) ≤ v := by have := (Rat.cast_le (K := ℝ)).2 v0; push_cast at this; exact this
  have v1r : (v:ℝ) ≤ 311 / 100 := by have := (Rat.cast_le (K := ℝ)).2 v1; push_cast at this; exact this
  obtain ⟨E, w, e, b, -, -⟩ := C79_accuracy hf 1 v false z (by rw [← o]; exact valid_i _) hv (by norm_num) (by norm_num) v0
    (v1.trans (by norm_num))
  refine ⟨E, w, by rw [o]; exact e, ?_⟩
  rw [div_eq_mul_one_div _ ((2:ℝ) ^ f.prec), ← uro_eq] at b
  simp only [Rat.cast_one, Real.Gamma_one, div_one, one_mul] at b
  rw [gi_int (by linarith), Real.rpow_neg_one] at b
  have z0 : (0:ℝ) < v := by linarith
  have hM : Real.exp v * (v:ℝ)⁻¹ * (1 - Real.exp (-v)) ≤ 69 / 10 := by
    have h1 : Real.exp v * (v:ℝ)⁻¹ * (1 - Real.exp (-v)) = (Real.exp v - 1) / v := by
      have : Real.exp v * Real.exp (-v) = 1 := by rw [← Real.exp_add]; simp
      rw [div_eq_mul_inv]
      linear_combination -(v:ℝ)⁻¹ * this
    rw [h1, div_le_iff₀ z0]
    exact gi_M z0.le v1r
  have hl : Real.log (1 + v + 6) ≤ 278 / 100 := by
    have h1 : Real.log (1 + v + 6) ≤ Real.log (2 ^ 4) := Real.log_le_log (by linarith) (by norm_num; linarith)
    rw [Real.log_pow] at h1
    have := Real.log_two_lt_d9
    push_cast at h1
    linarith
  have e0 := Real.exp_pos (-(v:ℝ))
  have e1 : Real.exp (-(v:ℝ)) ≤ 1 := Real.exp_le_one_iff.2 (by linarith)
  refine b.trans ?_
  set M := Real.exp v * (v:ℝ)⁻¹ * (1 - Real.exp (-v))
  have M0 : 0 ≤ M := by have : 0 ≤ 1 - Real.exp (-(v:ℝ)) := by linarith
                        positivity
  have l0 : 0 ≤ Real.log (1 + v + 6) := Real.log_nonneg (by linarith)
  calc _ ≤ ((330 + 70 * Real.log (1 + v + 6) + 10 * v + 410 * M) * uro f + 24 / 10 ^ 15) * 1 := by
        gcongr
        linarith
    _ ≤ _ := by
        have : (330 + 70 * Real.log (1 + v + 6) + 10 * v + 410 * M) * uro f ≤ 3400 * uro f := by
          gcongr
          linarith
        linarith

/-- the derivative used by the iteration -/
theorem gi_deriv (hf : f.exact = false) {w : ℚ} {z : Bool} (hw : Valid (fin w z : FV f)) (w0 : 1 / 2 ≤ w) (w1 : w ≤ 311 / 100) :
    ∃ D : ℚ, incomplete_gamma_inv_deriv_1 (fin w z : FV f) (i 1) (fin 0 false) = .ok (fin D false) ∧ 1 / 40 ≤ D ∧ D ≤ 1 ∧
      |(D:ℝ) - Real.exp (-(w:ℝ))| ≤ 150 * uro f * Real.exp (-(w:ℝ)) := by
  have u0 := uro_pos_real f
  have u1 := uro7_real f
  have w0r : (1 / 2 : ℝ) ≤ w := by have := (Rat.cast_le (K := ℝ)).2 w0; push_cast at this; exact this
  have w1r : (w:ℝ) ≤ 311 / 100 := by have := (Rat.cast_le (K := ℝ)).2 w1; push_cast at this; exact this
  obtain ⟨l, t, el, -⟩ := log_half hf w z hw w0
  have z0 : Is (i 1 - i 1 : FV f) 0 := by
    have := (is_one (f := f)).sub is_one (nov (by norm_num))
    rwa [sub_self, rnd_zero] at this
  have z1 : Is ((i 1 - i 1) * fin l t : FV f) 0 := by
    have := z0.mul (is_fin l t) (nov (by rw [zero_mul, abs_zero]; positivity))
    rwa [zero_mul, rnd_zero] at this
  have wn : |-w| ≤ 2 ^ 127 := by rw [abs_neg, abs_of_pos (by linarith)]; exact w1.trans (by norm_num)
  have rw' : rnd f (-w) = -w := hw.rep.neg
  have z2 : Is (-(fin w z : FV f) + (i 1 - i 1) * fin l t) (-w) := by
    have := ((is_fin (f := f) w z).neg).add z1 (nov (by rw [add_zero]; exact wn))
    rwa [add_zero, rw'] at this
  have z3 : Is (-(fin w z : FV f) + (i 1 - i 1) * fin l t - fin 0 false) (-w) := by
    have := z2.sub (is_fin (f := f) 0 false) (nov (by rw [sub_zero]; exact wn))
    rwa [sub_zero, rw'] at this
  obtain ⟨s, e⟩ := z3
  have hv : Valid (fin (-w) s : FV f) := by rw [← e]; exact valid_sub _ _
  have m1 : (86:ℝ) ≤ expMin f.ty := by exact_mod_cast expMin_ge f.ty
  have m2 : (expMin f.ty : ℝ) ≤ expMax f.ty := by exact_mod_cast (expMin_le f.ty).2
  obtain ⟨D, e1, D0, hD⟩ := exp_of_lgamma hf hv (D := 0) (t := -(w:ℝ)) (by norm_num) (by push_cast; simp) (by linarith) (by linarith)
  rw [abs_neg, abs_of_pos (show (0:ℝ) < w by linarith), mul_zero, add_zero] at hD
  have Ep := Real.exp_pos (-(w:ℝ))
  have hD' : |(D:ℝ) - Real.exp (-(w:ℝ))| ≤ 150 * uro f * Real.exp (-(w:ℝ)) := by
    refine hD.trans ?_
    gcongr
    linarith
  have E1 : Real.exp (-(w:ℝ)) ≤ 62 / 100 := by
    refine (Real.exp_le_exp.2 (by linarith : -(w:ℝ) ≤ -(1 / 2))).trans ?_
    rw [Real.exp_neg, inv_le_comm₀ (Real.exp_pos _) (by norm_num)]
    have := Real.quadratic_le_exp_of_nonneg (x := 1 / 2) (by norm_num)
    norm_num at this ⊢
    linarith
  have E2 : 4 / 100 ≤ Real.exp (-(w:ℝ)) := by
    have h3 : Real.exp (-(311 / 100)) ≤ Real.exp (-(w:ℝ)) := Real.exp_le_exp.2 (by linarith)
    have h4 : (4 / 100 : ℝ) ≤ Real.exp (-(311 / 100)) := by
      rw [Real.exp_neg, le_inv_comm₀ (by norm_num) (Real.exp_pos _)]
      have := exp_le_inv (s := 311 / 100) (t := 311 / 100) (B := 2243 / 100) (by norm_num) (by norm_num) (by norm_num) (by decide +kernel)
      push_cast at this
      linarith
    linarith
  have h5 := abs_le.1 hD'
  have h6 : 150 * (uro f : ℝ) * Real.exp (-(w:ℝ)) ≤ 1 / 1000 * 1 := by gcongr <;> linarith
  refine ⟨D, ?_, ?_, ?_, hD'⟩
  · unfold incomplete_gamma_inv_deriv_1
    rw [el]
    change exp (-(fin w z : FV f) + (i 1 - i 1) * fin l t - fin 0 false) = _
    rw [e]; exact e1
  · have : (1 / 40 : ℝ) ≤ D := by linarith
    exact (Rat.cast_le (K := ℝ)).1 (by push_cast; exact this)
  · have : (D:ℝ) ≤ 1 := by linarith
    exact_mod_cast this

/-- one step of the iteration -/
theorem gi_step (hf : f.exact = false) {p v D : ℚ} {zp zv : Bool} {y w Eb ρ B κ : ℝ} (hv : Valid (fin v zv : FV f))
    (y0 : 0 ≤ y) (y3 : y ≤ 3) (hp : 1 - Real.exp (-y) = p) (hvy : |(v:ℝ) - y| ≤ ρ) (hwy : |w - y| ≤ ρ) (v0 : 1 / 2 ≤ v) (v1 : v ≤ 311 / 100)
    (hD : |(D:ℝ) - Real.exp (-w)| ≤ 150 * uro f * Real.exp (-w)) (D1 : 1 / 40 ≤ D) (D2 : D ≤ 1)
    (hB : Real.exp (2 * ρ) ≤ B) (B0 : 0 < B) (k1 : B * 12003 / 10000 * (1 - κ) ≤ 1) (k2 : B ≤ (1 + κ) * (79988 / 100000))
    (κ0 : 0 ≤ κ) (κ1 : κ < 1) (hEb : Real.exp w ≤ Eb) :
    ∃ (r1 : FV f) (v' : ℚ) (z' : Bool), incomplete_gamma_inv_ratio_val_1 (fin v zv : FV f) (i 1) (fin p zp) (fin D false) = .ok r1 ∧
      (fin v zv : FV f) - halley r1 (incomplete_gamma_inv_ratio_val_2 (fin v zv) (i 1) (fin D false)) = fin v' z' ∧ Valid (fin v' z' : FV f) ∧
      |(v':ℝ) - y| ≤ (κ + 1 / 10 ^ 6) * |(v:ℝ) - y| + (126 / 100 * (Eb * (3400 * uro f + 24 / 10 ^ 15)) + 4 * uro f) := by
  have u0 := uro_pos_real f
  have u1 := uro7_real f
  have vp : 0 < v := by linarith
  have va : |v| = v := abs_of_pos vp
  obtain ⟨E, wE, eE, hE⟩ := gi_val hf hv v0 v1
  have ev0 := Real.exp_pos (-(v:ℝ))
  have vr0 : (0:ℝ) < v := by exact_mod_cast vp
  have ev1 : Real.exp (-(v:ℝ)) ≤ 1 := Real.exp_le_one_iff.2 (by linarith)
  have ey0 := Real.exp_pos (-y)
  have ey1 : Real.exp (-y) ≤ 1 := Real.exp_le_one_iff.2 (by linarith)
  have Eb1 := abs_le.1 hE
  have hEp : |((E - p : ℚ) : ℝ)| ≤ 2 := by
    push_cast; rw [← hp]
    norm_num at Eb1 u1
    exact abs_le.2 ⟨by linarith, by linarith⟩
  have hEp' : |E - p| ≤ 2 ^ 1 := by exact_mod_cast hEp
  have D0 : 0 < D := by linarith
  have iS := (is_fin (f := f) E wE).sub (is_fin p zp) (nov (hEp'.trans (by norm_num)))
  have nS := rnd_abs_le_two (f := f) _ hEp'
  have xR : |rnd f (E - p) / D| ≤ 2 ^ 7 := by
    rw [abs_div, abs_of_pos D0, div_le_iff₀ D0]; norm_num at nS ⊢; linarith
  have iR := iS.div (is_fin D false) D0.ne' (nov (xR.trans (by norm_num)))
  have nR := rnd_abs_le_two (f := f) _ xR
  have z0 : Is (i 1 - i 1 : FV f) 0 := by
    have := (is_one (f := f)).sub is_one (nov (by norm_num))
    rwa [sub_self, rnd_zero] at this
  have z1 : Is ((i 1 - i 1) / fin v zv : FV f) 0 := by
    have := z0.div (is_fin v zv) vp.ne' (nov (by rw [zero_div, abs_zero]; positivity))
    rwa [zero_div, rnd_zero] at this
  have r1 : rnd f (-1) = -1 := (rep_one' (f := f)).neg
  have z2 : Is ((i 1 - i 1) / fin v zv - i 1 : FV f) (-1) := by
    have := z1.sub is_one (nov (by norm_num))
    rwa [zero_sub, r1] at this
  have x2 : |D * -1| ≤ 2 ^ 0 := by
    rw [abs_mul, abs_of_pos D0]; norm_num; exact D2
  have j2 := (is_fin (f := f) D false).mul z2 (nov (x2.trans (by norm_num)))
  have n2 := rnd_abs_le_two (f := f) _ x2
  have x3 : |rnd f (D * -1) / D| ≤ 2 ^ 6 := by
    rw [abs_div, abs_of_pos D0, div_le_iff₀ D0]; norm_num at n2 ⊢; linarith
  have j3 := j2.div (is_fin D false) D0.ne' (nov (x3.trans (by norm_num)))
  have n3 := rnd_abs_le_two (f := f) _ x3
  obtain ⟨g, ig, g1, g2⟩ := halley_is hf iR j3 (nR.trans (by norm_num)) (n3.trans (by norm_num))
  have g0 : 0 < g := by linarith
  have x4 : |rnd f (rnd f (E - p) / D) / g| ≤ 2 ^ 8 := by
    rw [abs_div, abs_of_pos g0, div_le_iff₀ g0]; norm_num at nR ⊢; linarith
  have n4 := rnd_abs_le_two (f := f) _ x4
  have x5 : |v - rnd f (rnd f (rnd f (E - p) / D) / g)| ≤ 2 ^ 9 := by
    have := abs_sub v (rnd f (rnd f (rnd f (E - p) / D) / g))
    rw [va] at this
    norm_num at n4 ⊢
    linarith
  obtain ⟨z', e'⟩ := (is_fin (f := f) v zv).sub ig (nov (x5.trans (by norm_num)))
  refine ⟨(fin E wE - fin p zp) / fin D false, _, z', ?_, e', ?_, ?_⟩
  · unfold incomplete_gamma_inv_ratio_val_1; rw [eE]; rfl
  · have : Valid ((fin v zv : FV f) - halley ((fin E wE - fin p zp) / fin D false) (incomplete_gamma_inv_ratio_val_2 (fin v zv) (i 1) (fin D false))) :=
      valid_sub _ _
    exact (show (fin v zv : FV f) - halley ((fin E wE - fin p zp) / fin D false) (incomplete_gamma_inv_ratio_val_2 (fin v zv) (i 1) (fin D false)) =
      fin _ z' from e') ▸ this
  · have hS := rnd_tiny_real f (E - p)
    have hR := rnd_tiny_real f (rnd f (E - p) / D)
    have hd := rnd_tiny_real f (rnd f (rnd f (E - p) / D) / g)
    have hvv := rnd_sub_real' (f := f) hv.rep (rep_rnd f (rnd f (rnd f (E - p) / D) / g))
    clear e' ig iR iS j3 j2 z2 x5 x4 n4 n3 x3 n2 x2 z1 nR xR nS
    generalize rnd f (v - rnd f (rnd f (rnd f (E - p) / D) / g)) = V at *
    generalize rnd f (rnd f (rnd f (E - p) / D) / g) = dir at *
    generalize rnd f (rnd f (E - p) / D) = R at *
    generalize rnd f (E - p) = S at *
    push_cast at hS hR hd hvv
    exact gi_real y0 y3 hvy hwy hp u0.le u1 hD
      (by have := (Rat.cast_le (K := ℝ)).2 D1; push_cast at this; exact this)
      (by have := (Rat.cast_le (K := ℝ)).2 g1; push_cast at this; exact this)
      (by have := (Rat.cast_le (K := ℝ)).2 g2; push_cast at this; exact this) hB B0 k1 k2 κ0 κ1 hEb hE hS hR hd hvv

/-- several steps of the iteration -/
theorem gi_iter (hf : f.exact = false) {p : ℚ} {zp : Bool} {y Eb ρ B κ F : ℝ} (y0 : 69 / 100 ≤ y) (y3 : y ≤ 2996 / 1000)
    (hp : 1 - Real.exp (-y) = p) (hρ : ρ ≤ 1 / 9) (hB : Real.exp (2 * ρ) ≤ B) (B0 : 0 < B) (k1 : B * 12003 / 10000 * (1 - κ) ≤ 1)
    (k2 : B ≤ (1 + κ) * (79988 / 100000)) (κ0 : 0 ≤ κ) (κ1 : κ ≤ 9 / 10) (hEb : Real.exp (y + ρ) ≤ Eb)
    (hF : (1 - (κ + 1 / 10 ^ 6)) * F = 126 / 100 * (Eb * (3400 * uro f + 24 / 10 ^ 15)) + 4 * uro f) (hF2 : F ≤ ρ) (left : ℕ) :
    ∀ (n : ℕ) (v D : ℚ) (zv : Bool) (e w : ℝ), Valid (fin v zv : FV f) → |(v:ℝ) - y| ≤ e → e ≤ ρ → |w - y| ≤ ρ →
      |(D:ℝ) - Real.exp (-w)| ≤ 150 * uro f * Real.exp (-w) → 1 / 40 ≤ D → D ≤ 1 →
      ∃ (v' D' : ℚ) (z' : Bool) (w' : ℝ), incomplete_gamma_inv_recur (i 1 : FV f) (fin p zp) (fin 0 false) (left + n) (fin v zv) (fin D false) =
          incomplete_gamma_inv_recur (i 1) (fin p zp) (fin 0 false) left (fin v' z') (fin D' false) ∧
        Valid (fin v' z' : FV f) ∧ |(v':ℝ) - y| ≤ (κ + 1 / 10 ^ 6) ^ n * (e - F) + F ∧ |w' - y| ≤ ρ ∧ (n = 1 → |w' - y| ≤ e) ∧
        |(D':ℝ) - Real.exp (-w')| ≤ 150 * uro f * Real.exp (-w') ∧ 1 / 40 ≤ D' ∧ D' ≤ 1 := by
  intro n
  induction n with
  | zero =>
    intro v D zv e w hv hve he hwy hD D1 D2
    exact ⟨v, D, zv, w, rfl, hv, by simp only [pow_zero, one_mul]; linarith, hwy, by simp, hD, D1, D2⟩
  | succ n ih =>
    intro v D zv e w hv hve he hwy hD D1 D2
    have hvy := hve.trans he
    have hvy' := abs_le.1 hvy
    have hw := abs_le.1 hwy
    have v0 : 1 / 2 ≤ v := (Rat.cast_le (K := ℝ)).1 (by push_cast; linarith)
    have v1 : v ≤ 311 / 100 := (Rat.cast_le (K := ℝ)).1 (by push_cast; linarith)
    obtain ⟨r1, v', z', e1, e2, hv', b⟩ := gi_step (zp := zp) hf hv (by linarith) (by linarith) hp hvy hwy v0 v1 hD D1 D2 hB B0 k1 k2 κ0 (by linarith)
      ((Real.exp_le_exp.2 (by linarith)).trans hEb)
    rw [← hF] at b
    obtain ⟨D', eD, D1', D2', hD'⟩ := gi_deriv hf hv v0 v1
    have b' : |(v':ℝ) - y| ≤ (κ + 1 / 10 ^ 6) * e + (1 - (κ + 1 / 10 ^ 6)) * F := b.trans (by gcongr)
    have b2 : (κ + 1 / 10 ^ 6) * e + (1 - (κ + 1 / 10 ^ 6)) * F ≤ ρ := by
      have h1 : (κ + 1 / 10 ^ 6) * e ≤ (κ + 1 / 10 ^ 6) * ρ := by gcongr
      have h2 : (1 - (κ + 1 / 10 ^ 6)) * F ≤ (1 - (κ + 1 / 10 ^ 6)) * ρ := mul_le_mul_of_nonneg_left hF2 (by norm_num; linarith)
      linarith
    obtain ⟨v2, D2, z2, w2, er, h2, br, hw2, -, hD2, c1, c2⟩ := ih v' D' z' _ v hv' b' b2 hvy hD' D1' D2'
    have step : incomplete_gamma_inv_recur (i 1 : FV f) (fin p zp) (fin 0 false) (left + n + 1) (fin v zv) (fin D false) =
        incomplete_gamma_inv_recur (i 1) (fin p zp) (fin 0 false) (left + n) (fin v' z') (fin D' false) := by
      rw [← e2]
      conv_lhs => unfold incomplete_gamma_inv_recur
      rw [e1]
      simp only []
      change (incomplete_gamma_inv_deriv_1 (fin v zv) (i 1) (fin 0 false) >>= fun d1 => _) = _
      rw [eD]
      rfl
    rcases n with _ | n
    · exact ⟨v', D', z', v, step, hv', b'.trans (le_of_eq (by ring)), hvy, fun _ => hve, hD', D1', D2'⟩
    · refine ⟨v2, D2, z2, w2, step.trans er, h2, br.trans (le_of_eq ?_), hw2, by simp, hD2, c1, c2⟩
      rw [pow_succ _ (n + 1)]; ring

/-- the last step -/
theorem gi_last (hf : f.exact = false) {p : ℚ} {zp : Bool} {y Eb ρ B κ F : ℝ} (y0 : 69 / 100 ≤ y) (y3 : y ≤ 2996 / 1000)
    (hp : 1 - Real.exp (-y) = p) (hρ : ρ ≤ 1 / 9) (hB : Real.exp (2 * ρ) ≤ B) (B0 : 0 < B) (k1 : B * 12003 / 10000 * (1 - κ) ≤ 1)
    (k2 : B ≤ (1 + κ) * (79988 / 100000)) (κ0 : 0 ≤ κ) (κ1 : κ ≤ 9 / 10) (hEb : Real.exp (y + ρ) ≤ Eb)
    (hF : (1 - (κ + 1 / 10 ^ 6)) * F = 126 / 100 * (Eb * (3400 * uro f + 24 / 10 ^ 15)) + 4 * uro f)
    (v D : ℚ) (zv : Bool) (e w : ℝ) (hv : Valid (fin v zv : FV f)) (hve : |(v:ℝ) - y| ≤ e) (he : e ≤ ρ) (hwy : |w - y| ≤ ρ)
    (hD : |(D:ℝ) - Real.exp (-w)| ≤ 150 * uro f * Real.exp (-w)) (D1 : 1 / 40 ≤ D) (D2 : D ≤ 1) :
    ∃ (r : ℚ) (z : Bool), incomplete_gamma_inv_recur (i 1 : FV f) (fin p zp) (fin 0 false) 0 (fin v zv) (fin D false) = .ok (fin r z) ∧
      |(r:ℝ) - y| ≤ (κ + 1 / 10 ^ 6) * e + (1 - (κ + 1 / 10 ^ 6)) * F := by
  have hvy := hve.trans he
  have hvy' := abs_le.1 hvy
  have hw := abs_le.1 hwy
  have v0 : 1 / 2 ≤ v := (Rat.cast_le (K := ℝ)).1 (by push_cast; linarith)
  have v1 : v ≤ 311 / 100 := (Rat.cast_le (K := ℝ)).1 (by push_cast; linarith)
  obtain ⟨r1, v', z', e1, e2, -, b⟩ := gi_step (zp := zp) hf hv (by linarith) (by linarith) hp hvy hwy v0 v1 hD D1 D2 hB B0 k1 k2 κ0 (by linarith)
    ((Real.exp_le_exp.2 (by linarith)).trans hEb)
  rw [← hF] at b
  refine ⟨v', z', ?_, b.trans (by gcongr)⟩
  unfold incomplete_gamma_inv_recur; rw [e1]; exact congrArg Except.ok e2

theorem gi_F1 {u I : ℝ} (hu : u ≤ 1 / 16777216) (iu : I * u ≤ 20 * (1 / 16777216)) (I2 : I ≤ 20) :
    (126 / 100 * (11176 / 10000 * I * (3400 * u + 24 / 10 ^ 15)) + 4 * u) / (1 - (569999 / 10 ^ 6 + 1 / 10 ^ 6)) ≤ 14 / 1000 := by
  rw [div_le_iff₀ (by norm_num)]
  norm_num at iu hu ⊢
  nlinarith

theorem gi_F2' {u I : ℝ} (hu : u ≤ 1 / 16777216) (iu : I * u ≤ 20 * (1 / 16777216)) (I2 : I ≤ 20) :
    (126 / 100 * (10203 / 10000 * I * (3400 * u + 24 / 10 ^ 15)) + 4 * u) / (1 - (309999 / 10 ^ 6 + 1 / 10 ^ 6)) ≤ 1 / 100 := by
  rw [div_le_iff₀ (by norm_num)]
  norm_num at iu hu ⊢
  nlinarith

theorem gi_F2 {u I : ℝ} (u0 : 0 ≤ u) (I1 : 1 ≤ I) :
    (126 / 100 * (10203 / 10000 * I * (3400 * u + 24 / 10 ^ 15)) + 4 * u) / (1 - (309999 / 10 ^ 6 + 1 / 10 ^ 6)) ≤
      (6345 * u + 5 / 10 ^ 14) * I := by
  rw [div_le_iff₀ (by norm_num)]
  have : u ≤ I * u := by nlinarith
  norm_num
  nlinarith

theorem gi_end {u I F : ℝ} (u0 : 0 ≤ u) (I1 : 1 ≤ I) (hF : F ≤ (6345 * u + 5 / 10 ^ 14) * I) :
    (309999 / 10 ^ 6 + 1 / 10 ^ 6) * (4 / 10 ^ 16 + F) + (1 - (309999 / 10 ^ 6 + 1 / 10 ^ 6)) * F ≤ (6350 * u + 1 / 10 ^ 13) * I := by
  have : (0:ℝ) ≤ u * I := mul_nonneg u0 (by linarith)
  have h : (309999 / 10 ^ 6 + 1 / 10 ^ 6) * (4 / 10 ^ 16 + F) + (1 - (309999 / 10 ^ 6 + 1 / 10 ^ 6)) * F ≤ F + 4 / 10 ^ 16 := by
    norm_num; linarith
  refine h.trans ?_
  norm_num at hF ⊢
  linarith

/-- all 36 steps -/
theorem gi_all (hf : f.exact = false) {p : ℚ} {zp : Bool} {y : ℝ} (y0 : 69 / 100 ≤ y) (y3 : y ≤ 2996 / 1000) (hp : 1 - Real.exp (-y) = p)
    (p1 : p ≤ 95 / 100)
    {v D : ℚ} {zv : Bool} (hv : Valid (fin v zv : FV f)) (hvy : |(v:ℝ) - y| ≤ 1 / 9)
    (hD : |(D:ℝ) - Real.exp (-v)| ≤ 150 * uro f * Real.exp (-v)) (D1 : 1 / 40 ≤ D) (D2 : D ≤ 1) :
    ∃ (r : ℚ) (z : Bool), incomplete_gamma_inv_recur (i 1 : FV f) (fin p zp) (fin 0 false) 35 (fin v zv) (fin D false) = .ok (fin r z) ∧
      |(r:ℝ) - y| ≤ (6350 * uro f + 1 / 10 ^ 13) / (1 - p) := by
  have u0 := uro_pos_real f
  have u1 := uro_le f
  have p1r : (p:ℝ) ≤ 95 / 100 := by have := (Rat.cast_le (K := ℝ)).2 p1; push_cast at this; exact this
  set s : ℝ := 1 - p with hs
  have s0 : 1 / 20 ≤ s := by rw [hs]; linarith
  have sp : 0 < s := by linarith
  have s1 : s ≤ 1 := by have := Real.exp_le_one_iff.2 (by linarith : -y ≤ 0); rw [hs]; linarith
  have ey : Real.exp y = 1 / s := by
    have : Real.exp (-y) = s := by rw [hs]; linarith
    rw [Real.exp_neg] at this
    rw [← this]; simp
  have x1 : Real.exp (1 / 9) ≤ 11176 / 10000 := by
    have := exp_le_inv (s := 1 / 9) (t := 1 / 9) (B := 11176 / 10000) (by norm_num) (by norm_num) (by norm_num) (by decide +kernel)
    push_cast at this; exact this
  have x2 : Real.exp (2 * (1 / 9)) ≤ 1249 / 1000 := by
    have := exp_le_inv (s := 2 * (1 / 9)) (t := 2 / 9) (B := 1249 / 1000) (by norm_num) (by norm_num) (by norm_num) (by decide +kernel)
    push_cast at this; exact this
  have x3 : Real.exp (1 / 50) ≤ 10203 / 10000 := by
    have := exp_le_inv (s := 1 / 50) (t := 1 / 50) (B := 10203 / 10000) (by norm_num) (by norm_num) (by norm_num) (by decide +kernel)
    push_cast at this; exact this
  have x4 : Real.exp (2 * (1 / 50)) ≤ 1041 / 1000 := by
    have := exp_le_inv (s := 2 * (1 / 50)) (t := 1 / 25) (B := 1041 / 1000) (by norm_num) (by norm_num) (by norm_num) (by decide +kernel)
    push_cast at this; exact this
  have is : 1 / s ≤ 20 := by rw [div_le_iff₀ sp]; linarith
  have is1 : 1 ≤ 1 / s := by rw [le_div_iff₀ sp]; linarith
  set I := 1 / s with hI
  have e1 : Real.exp (y + 1 / 9) ≤ 11176 / 10000 * I := by
    rw [Real.exp_add, ey, mul_comm]; gcongr
  have e2 : Real.exp (y + 1 / 50) ≤ 10203 / 10000 * I := by
    rw [Real.exp_add, ey, mul_comm]; gcongr
  set F1 : ℝ := (126 / 100 * (11176 / 10000 * I * (3400 * uro f + 24 / 10 ^ 15)) + 4 * uro f) / (1 - (569999 / 10 ^ 6 + 1 / 10 ^ 6)) with hF1
  set F2 : ℝ := (126 / 100 * (10203 / 10000 * I * (3400 * uro f + 24 / 10 ^ 15)) + 4 * uro f) / (1 - (309999 / 10 ^ 6 + 1 / 10 ^ 6)) with hF2
  have iu : I * uro f ≤ 20 * (1 / 16777216) := by gcongr
  have F1b : F1 ≤ 14 / 1000 := gi_F1 u1 iu is
  have F2b : F2 ≤ 1 / 100 := gi_F2' u1 iu is
  have F20 : 0 ≤ F2 := by rw [hF2]; exact div_nonneg (by positivity) (by norm_num)
  have F10 : 0 ≤ F1 := by rw [hF1]; exact div_nonneg (by positivity) (by norm_num)
  -- seven steps in the first phase
  obtain ⟨va, Da, za, wa, ra, hva, ba, hwa, -, hDa, Da1, Da2⟩ := gi_iter (zp := zp) (ρ := 1 / 9) (B := 1249 / 1000) (κ := 569999 / 10 ^ 6) (F := F1)
    hf y0 y3 hp le_rfl x2 (by norm_num) (by norm_num) (by norm_num) (by norm_num) (by norm_num) e1
    (by rw [hF1, mul_div_cancel₀ _ (by norm_num)]) (by linarith) 28 7 v D zv _ v hv hvy le_rfl hvy hD D1 D2
  have ba' : |(va:ℝ) - y| ≤ 18 / 1000 := by
    refine ba.trans ?_
    have : ((569999 / 10 ^ 6 + 1 / 10 ^ 6 : ℝ)) ^ 7 ≤ 2 / 100 := by norm_num
    have h7 : ((569999 / 10 ^ 6 + 1 / 10 ^ 6 : ℝ)) ^ 7 * (1 / 9 - F1) ≤ 2 / 100 * (1 / 9) := by
      gcongr
      · linarith
      · linarith
    linarith
  obtain ⟨vb, Db, zb, wb, rb, hvb, bb, -, hwb, hDb, Db1, Db2⟩ := gi_iter (zp := zp) (ρ := 1 / 9) (B := 1249 / 1000) (κ := 569999 / 10 ^ 6) (F := F1)
    hf y0 y3 hp le_rfl x2 (by norm_num) (by norm_num) (by norm_num) (by norm_num) (by norm_num) e1
    (by rw [hF1, mul_div_cancel₀ _ (by norm_num)]) (by linarith) 27 1 va Da za _ wa hva ba' (by norm_num) hwa hDa Da1 Da2
  have bb' : |(vb:ℝ) - y| ≤ 1 / 50 := by
    refine bb.trans ?_
    norm_num at F1b ⊢
    linarith
  obtain ⟨vc, Dc, zc, wc, rc, hvc, bc, hwc, -, hDc, Dc1, Dc2⟩ := gi_iter (zp := zp) (ρ := 1 / 50) (B := 1041 / 1000) (κ := 309999 / 10 ^ 6) (F := F2)
    hf y0 y3 hp (by norm_num) x4 (by norm_num) (by norm_num) (by norm_num) (by norm_num) (by norm_num) e2
    (by rw [hF2, mul_div_cancel₀ _ (by norm_num)]) (by linarith) 0 27 vb Db zb _ wb hvb bb' le_rfl ((hwb rfl).trans (by norm_num)) hDb Db1 Db2
  have cc : ((309999 / 10 ^ 6 + 1 / 10 ^ 6 : ℝ)) ^ 27 * (1 / 50 - F2) + F2 ≤ 4 / 10 ^ 16 + F2 := by
    have : ((309999 / 10 ^ 6 + 1 / 10 ^ 6 : ℝ)) ^ 27 ≤ 2 / 10 ^ 14 := by norm_num
    have h7 : ((309999 / 10 ^ 6 + 1 / 10 ^ 6 : ℝ)) ^ 27 * (1 / 50 - F2) ≤ 2 / 10 ^ 14 * (1 / 50) := by
      gcongr
      · linarith
      · linarith
    norm_num at h7 ⊢
    linarith
  have c2 : 4 / 10 ^ 16 + F2 ≤ 1 / 50 := by norm_num at F2b ⊢; linarith
  obtain ⟨r, z, er, br⟩ := gi_last (zp := zp) (ρ := 1 / 50) (B := 1041 / 1000) (κ := 309999 / 10 ^ 6) (F := F2)
    hf y0 y3 hp (by norm_num) x4 (by norm_num) (by norm_num) (by norm_num) (by norm_num) (by norm_num) e2
    (by rw [hF2, mul_div_cancel₀ _ (by norm_num)]) vc Dc zc _ wc hvc (bc.trans cc) c2 hwc hDc Dc1 Dc2
  refine ⟨r, z, ?_, br.trans ?_⟩
  · exact ra.trans (rb.trans (rc.trans er))
  · exact (gi_end u0.le is1 (gi_F2 u0.le is1)).trans (le_of_eq (by rw [hI]; ring))

end Gcem.Props
