import Verif.Analysis.ErfInv
import Verif.Props.TgammaAcc
import Verif.Props.IgammaTail

/-! # One step of the iteration of `erf_inv` (towards C83) -/

namespace Gcem.Props
open FV

variable {f : Fmt}

theorem half_emin_tiny (f : Fmt) : pow2 f.emin / 2 ≤ uro f / 2 ^ 125 := by
  rcases f with ⟨⟨⟩, ⟨⟩⟩ <;> decide +kernel

theorem rnd_tiny_real (f : Fmt) (q : ℚ) : |((rnd f q : ℚ) : ℝ) - q| ≤ uro f * |(q:ℝ)| + uro f / 2 ^ 125 := by
  have h := (Rat.cast_le (K := ℝ)).2 ((rnd_err_all (f := f) q).trans (add_le_add_right (half_emin_tiny f) _))
  push_cast at h
  exact h

theorem rnd_sub_real' {a b : ℚ} (ha : Rep f a) (hb : Rep f b) :
    |((rnd f (a - b) : ℚ) : ℝ) - (a - b)| ≤ uro f * |(a - b : ℝ)| := by
  have := rnd_add_real ha hb.neg
  push_cast at this
  simpa only [sub_eq_add_neg] using this

/-- dividing a perturbed number -/
theorem ei_div {a a' b D c u t τ : ℝ} (hD : 1 / 10 ≤ D) (u0 : 0 ≤ u) (hu : u ≤ 1 / 1000) (h : |a' - a| ≤ c * u * |a| + t) (t0 : 0 ≤ t)
    (hb : |b - a' / D| ≤ u * |a' / D| + τ) :
    |b - a / D| ≤ (c + 1 + c * u) * u * |a / D| + 11 * t + τ := by
  have D0 : 0 < D := by linarith
  have h1 : |a' / D - a / D| ≤ c * u * |a / D| + 10 * t := by
    rw [← sub_div, abs_div, abs_div, abs_of_pos D0]
    have : t / D ≤ 10 * t := by rw [div_le_iff₀ D0]; nlinarith
    calc |a' - a| / D ≤ (c * u * |a| + t) / D := by gcongr
      _ = c * u * (|a| / D) + t / D := by ring
      _ ≤ _ := by linarith
  have h2 : |a' / D| ≤ |a / D| + (c * u * |a / D| + 10 * t) := by
    have := abs_add_le (a / D) (a' / D - a / D)
    rw [show a / D + (a' / D - a / D) = a' / D by ring] at this
    linarith
  have h3 : |b - a / D| ≤ |b - a' / D| + |a' / D - a / D| := by
    have := abs_add_le (b - a' / D) (a' / D - a / D)
    rwa [show b - a' / D + (a' / D - a / D) = b - a / D by ring] at this
  have h4 : u * |a' / D| ≤ u * (|a / D| + (c * u * |a / D| + 10 * t)) := by gcongr
  nlinarith [mul_nonneg u0 t0]

/-- bounds for `m = (2/√π) h / (D g)`, the factor by which one step multiplies the error -/
theorem ei_factor {y w h D g u : ℝ} (y0 : 0 ≤ y) (hy : y ≤ 133 / 100) (w1 : (1 - 1 / 125) * y ≤ w) (w2 : w ≤ (1 + 1 / 125) * y)
    (h1 : Real.exp (-((1 + 1 / 125) * y) ^ 2) ≤ h) (h2 : h ≤ Real.exp (-((1 - 1 / 125) * y) ^ 2))
    (u0 : 0 ≤ u) (hu : u ≤ 1 / 10 ^ 7) (hD : |D - Real.exp (-w ^ 2)| ≤ 145 * u * Real.exp (-w ^ 2))
    (g1 : 7999 / 10000 ≤ g) (g2 : g ≤ 12001 / 10000) :
    886 / 1000 ≤ 2 / Real.sqrt Real.pi * h / (D * g) ∧ 2 / Real.sqrt Real.pi * h / (D * g) ≤ 14957 / 10000 ∧
      1 / (D * g) ≤ 12503 / 10000 * Real.exp (w ^ 2) ∧ 0 < D := by
  have c1 := erfC_le
  have c2 := erfC_ge
  have c0 := erfC_pos
  have hw : 0 ≤ w := le_trans (by positivity) w1
  have Ep := Real.exp_pos (-w ^ 2)
  have hD' := abs_le.1 hD
  have u' : 145 * u * Real.exp (-w ^ 2) ≤ 145 / 10 ^ 7 * Real.exp (-w ^ 2) := by gcongr; linarith
  have D1 : 99998 / 100000 * Real.exp (-w ^ 2) ≤ D := by linarith
  have D2 : D ≤ 100002 / 100000 * Real.exp (-w ^ 2) := by linarith
  have D0 : 0 < D := lt_of_lt_of_le (by positivity) D1
  have k0 : 4 / 125 * y ^ 2 ≤ 567 / 10000 := by nlinarith
  have hE : Real.exp (-w ^ 2) * Real.exp (w ^ 2) = 1 := by rw [← Real.exp_add]; simp
  have kE : Real.exp (4 / 125 * y ^ 2) ≤ 10602 / 10000 := by
    have h3 := Real.one_sub_le_exp_neg (4 / 125 * y ^ 2)
    rw [Real.exp_neg] at h3
    have h4 := Real.exp_pos (4 / 125 * y ^ 2)
    have h5 : 9433 / 10000 ≤ (Real.exp (4 / 125 * y ^ 2))⁻¹ := by linarith
    rw [le_inv_comm₀ (by norm_num) h4] at h5
    refine h5.trans (by norm_num)
  have kL : 9433 / 10000 ≤ Real.exp (-(4 / 125 * y ^ 2)) := by
    have h3 := Real.one_sub_le_exp_neg (4 / 125 * y ^ 2)
    linarith
  have hh2 : h ≤ 10602 / 10000 * Real.exp (-w ^ 2) := by
    refine h2.trans ?_
    calc Real.exp (-((1 - 1 / 125) * y) ^ 2) ≤ Real.exp (4 / 125 * y ^ 2 + -w ^ 2) := Real.exp_le_exp.2 (by nlinarith)
      _ = Real.exp (4 / 125 * y ^ 2) * Real.exp (-w ^ 2) := Real.exp_add _ _
      _ ≤ _ := by gcongr
  have hh1 : 9433 / 10000 * Real.exp (-w ^ 2) ≤ h := by
    refine le_trans ?_ h1
    calc 9433 / 10000 * Real.exp (-w ^ 2) ≤ Real.exp (-(4 / 125 * y ^ 2)) * Real.exp (-w ^ 2) := by gcongr
      _ = Real.exp (-(4 / 125 * y ^ 2) + -w ^ 2) := (Real.exp_add _ _).symm
      _ ≤ _ := Real.exp_le_exp.2 (by nlinarith)
  have hDg : 0 < D * g := by positivity
  have Dg1 : 79988 / 100000 * Real.exp (-w ^ 2) ≤ D * g := by nlinarith
  have Dg2 : D * g ≤ 120013 / 100000 * Real.exp (-w ^ 2) := by nlinarith
  refine ⟨?_, ?_, ?_, D0⟩
  · rw [le_div_iff₀ hDg]
    have : 112837 / 100000 * (9433 / 10000 * Real.exp (-w ^ 2)) ≤ 2 / Real.sqrt Real.pi * h :=
      mul_le_mul c2 hh1 (by positivity) c0.le
    linarith
  · rw [div_le_iff₀ hDg]
    have : 2 / Real.sqrt Real.pi * h ≤ 112838 / 100000 * (10602 / 10000 * Real.exp (-w ^ 2)) :=
      mul_le_mul c1 hh2 (le_trans (by positivity) hh1) (by norm_num)
    linarith
  · rw [div_le_iff₀ hDg]
    have := Real.exp_pos (w ^ 2)
    nlinarith


theorem ei_k {u : ℝ} (u0 : 0 ≤ u) (hu : u ≤ 1 / 10 ^ 7) : 2 + u + 1 + (2 + u) * u ≤ 301 / 100 := by nlinarith

theorem ei_fin {u A e B y z : ℝ} (u0 : 0 ≤ u) (hu : u ≤ 1 / 10 ^ 7) (A0 : 0 ≤ A) (e0 : 0 ≤ e) (B0 : 0 ≤ B) (y0 : 0 ≤ y)
    (h1 : B ≤ 4957 / 10000 * e + (142211 / 100000 * A + 301 / 100 * u * (14957 / 10000 * e + 142211 / 100000 * A) + u * y / 10 ^ 4))
    (h2 : z ≤ B + u * (y + B)) : z ≤ 4958 / 10000 * e + (14223 / 10000 * A + 102 / 100 * (u * y)) := by
  have uA : u * A ≤ 1 / 10 ^ 7 * A := by gcongr
  have ue : u * e ≤ 1 / 10 ^ 7 * e := by gcongr
  have uB : u * B ≤ 1 / 10 ^ 7 * B := by gcongr
  have uy : 0 ≤ u * y := by positivity
  have hBB : B ≤ 49571 / 100000 * e + 142212 / 100000 * A + u * y / 10 ^ 4 := by linarith
  linarith

/-- one step over the reals, with every rounding error as a hypothesis -/
theorem ei_real {y v w p E S D R g dir v' K Eb u : ℝ} (y1 : 1 / 2 ^ 102 ≤ y) (hy : y ≤ 133 / 100)
    (v1 : (1 - 1 / 125) * y ≤ v) (v2 : v ≤ (1 + 1 / 125) * y) (w1 : (1 - 1 / 125) * y ≤ w) (w2 : w ≤ (1 + 1 / 125) * y)
    (hp : erfR y = p) (u0 : 0 ≤ u) (hu : u ≤ 1 / 10 ^ 7) (hD : |D - Real.exp (-w ^ 2)| ≤ 145 * u * Real.exp (-w ^ 2))
    (D1 : 1 / 10 ≤ D) (g1 : 7999 / 10000 ≤ g) (g2 : g ≤ 12001 / 10000) (K0 : 0 ≤ K)
    (hE : |E - erfR v| ≤ K * u * erfR v) (hS : |S - (E - p)| ≤ u * |E - p| + u / 2 ^ 125) (hR : |R - S / D| ≤ u * |S / D| + u / 2 ^ 125)
    (hd : |dir - R / g| ≤ u * |R / g| + u / 2 ^ 125) (hv : |v' - (v - dir)| ≤ u * |v - dir|) (hb : Real.exp (w ^ 2) ≤ Eb) :
    |v' - y| ≤ 4958 / 10000 * |v - y| + (14223 / 10000 * K * Eb + 102 / 100) * u * y := by
  have y0 : 0 < y := lt_of_lt_of_le (by positivity) y1
  obtain ⟨h, hX, h1, h2⟩ := erfR_slope (A := (1 - 1 / 125) * y) (B := (1 + 1 / 125) * y) (y := y) (by positivity) v1 v2
    (by linarith) (by linarith)
  obtain ⟨m1, m2, m3, D0⟩ := ei_factor y0.le hy w1 w2 h1 h2 u0 hu hD g1 g2
  have g0 : 0 < g := by linarith
  have vp : 0 ≤ v := le_trans (by positivity) v1
  set m := 2 / Real.sqrt Real.pi * h / (D * g) with hm
  have d1 := ei_div (c := 1) (t := u / 2 ^ 125) D1 u0 (hu.trans (by norm_num)) (by rw [one_mul]; exact hS) (by positivity) hR
  have d2 := ei_div (D := g) (c := 2 + u) (t := 12 * (u / 2 ^ 125)) (by linarith) u0 (hu.trans (by norm_num)) (a := (E - p) / D)
    (by rw [show 2 + u = 1 + 1 + 1 * u by ring]; linarith) (by positivity) hd
  set Q := (E - p) / D / g with hQ
  have q1 : Q - m * (v - y) = (E - erfR v) * (1 / (D * g)) := by
    have : m * (v - y) = (erfR v - p) / (D * g) := by rw [hm, ← hp, hX]; ring
    rw [this, hQ, div_div]; ring
  have ev : erfR v ≤ 113741 / 100000 * y := by
    have := erfR_le_lin vp
    have : 2 / Real.sqrt Real.pi * v ≤ 112838 / 100000 * v := by have := erfC_le; gcongr
    linarith
  have ev0 : 0 ≤ erfR v := by have := erfR_mono vp; rwa [erfR_zero] at this
  have Eb0 : 0 ≤ Eb := le_trans (Real.exp_pos _).le hb
  have q2 : |Q - m * (v - y)| ≤ 142211 / 100000 * (K * Eb * u * y) := by
    have i0 : 0 ≤ 1 / (D * g) := by positivity
    rw [q1, abs_mul, abs_of_nonneg i0]
    calc |E - erfR v| * (1 / (D * g)) ≤ (K * u * (113741 / 100000 * y)) * (12503 / 10000 * Eb) := by
          refine mul_le_mul (hE.trans (by gcongr)) (m3.trans (by gcongr)) i0 (by positivity)
      _ = 113741 / 100000 * (12503 / 10000) * (K * Eb * u * y) := by ring
      _ ≤ _ := by gcongr; norm_num
  set A := K * Eb * u * y with hA
  have A0 : 0 ≤ A := by positivity
  set e := |v - y| with he
  have e0 : 0 ≤ e := abs_nonneg _
  have e1 : e ≤ y / 125 := abs_le.2 ⟨by linarith, by linarith⟩
  have q3 : |Q| ≤ 14957 / 10000 * e + 142211 / 100000 * A := by
    have := abs_add_le (m * (v - y)) (Q - m * (v - y))
    rw [show m * (v - y) + (Q - m * (v - y)) = Q by ring, abs_mul, abs_of_pos (by linarith : 0 < m)] at this
    have : m * e ≤ 14957 / 10000 * e := by gcongr
    linarith
  have ty : u / 2 ^ 125 ≤ u * y / 2 ^ 23 := by
    rw [div_le_div_iff₀ (by positivity) (by positivity)]
    have : u * (1 / 2 ^ 102) ≤ u * y := by gcongr
    norm_num at this ⊢
    linarith
  have d3 : |dir - Q| ≤ 301 / 100 * u * |Q| + u * y / 10 ^ 4 := by
    refine d2.trans ?_
    have a1 : (2 + u + 1 + (2 + u) * u) * u * |Q| ≤ 301 / 100 * u * |Q| := by
      gcongr
      exact ei_k u0 hu
    have a2 : 0 ≤ u * y := by positivity
    linarith
  have d4 : |dir - m * (v - y)| ≤ 142211 / 100000 * A + 301 / 100 * u * (14957 / 10000 * e + 142211 / 100000 * A) + u * y / 10 ^ 4 := by
    have := abs_add_le (dir - Q) (Q - m * (v - y))
    rw [show dir - Q + (Q - m * (v - y)) = dir - m * (v - y) by ring] at this
    have : 301 / 100 * u * |Q| ≤ 301 / 100 * u * (14957 / 10000 * e + 142211 / 100000 * A) := by gcongr
    linarith
  have d5 : |v - dir - y| ≤ 4957 / 10000 * e + |dir - m * (v - y)| := by
    have := abs_sub ((1 - m) * (v - y)) (dir - m * (v - y))
    rw [show (1 - m) * (v - y) - (dir - m * (v - y)) = v - dir - y by ring, abs_mul] at this
    have k : |1 - m| ≤ 4957 / 10000 := abs_le.2 ⟨by linarith, by linarith⟩
    have : |1 - m| * e ≤ 4957 / 10000 * e := by gcongr
    linarith
  set B := |v - dir - y| with hB
  have d6 : |v' - y| ≤ B + u * (y + B) := by
    have a1 := abs_add_le (v' - (v - dir)) (v - dir - y)
    rw [show v' - (v - dir) + (v - dir - y) = v' - y by ring] at a1
    have a2 := abs_add_le (v - dir - y) y
    rw [show v - dir - y + y = v - dir by ring, abs_of_pos y0] at a2
    have : u * |v - dir| ≤ u * (y + B) := by gcongr; linarith
    linarith
  have B0 : 0 ≤ B := abs_nonneg _
  clear_value A e B Q m
  have : (14223 / 10000 * K * Eb + 102 / 100) * u * y = 14223 / 10000 * A + 102 / 100 * (u * y) := by rw [hA]; ring
  rw [this]
  exact ei_fin u0 hu A0 e0 B0 y0.le (d5.trans (by linarith)) d6

/-! ## The floating-point step -/

theorem ei_d08 (hf : f.exact = false) : ∃ q : ℚ, Is (d 0.8 : FV f) q ∧ 7999 / 10000 ≤ q ∧ q ≤ 12001 / 10000 := by
  obtain ⟨ty, ex⟩ := f
  cases (show ex = false from hf)
  cases ty
  · exact ⟨13421773/16777216, ⟨false, by decide +kernel⟩, by norm_num, by norm_num⟩
  · exact ⟨3602879701896397/4503599627370496, ⟨false, by decide +kernel⟩, by norm_num, by norm_num⟩
  · exact ⟨3602879701896397/4503599627370496, ⟨false, by decide +kernel⟩, by norm_num, by norm_num⟩

theorem ei_d12 (hf : f.exact = false) : ∃ q : ℚ, Is (d 1.2 : FV f) q ∧ 7999 / 10000 ≤ q ∧ q ≤ 12001 / 10000 := by
  obtain ⟨ty, ex⟩ := f
  cases (show ex = false from hf)
  cases ty
  · exact ⟨10066330/8388608, ⟨false, by decide +kernel⟩, by norm_num, by norm_num⟩
  · exact ⟨5404319552844595/4503599627370496, ⟨false, by decide +kernel⟩, by norm_num, by norm_num⟩
  · exact ⟨5404319552844595/4503599627370496, ⟨false, by decide +kernel⟩, by norm_num, by norm_num⟩

/-- the clamp of `halley` -/
theorem clamp_is (hf : f.exact = false) {t : FV f} {T : ℚ} (h : Is t T) :
    ∃ g : ℚ, Is (fmax (d 0.8) (fmin (d 1.2) t)) g ∧ 7999 / 10000 ≤ g ∧ g ≤ 12001 / 10000 := by
  obtain ⟨a, ia, a1, a2⟩ := ei_d08 hf
  obtain ⟨b, ib, b1, b2⟩ := ei_d12 hf
  by_cases h1 : T > b
  · have e : fmin (d 1.2) t = d 1.2 := if_pos ((ib.lt_iff h).2 h1)
    rw [e]
    unfold fmax
    split_ifs
    · exact ⟨a, ia, a1, a2⟩
    · exact ⟨b, ib, b1, b2⟩
  · have e : fmin (d 1.2) t = t := if_neg (fun c => h1 ((ib.lt_iff h).1 c))
    rw [e]
    unfold fmax
    split_ifs with c
    · exact ⟨a, ia, a1, a2⟩
    · exact ⟨T, h, a1.trans (not_lt.1 (fun k => c ((h.lt_iff ia).2 k))), (not_lt.1 h1).trans b2⟩

theorem rnd_abs_le_two (q : ℚ) {n : ℕ} (h : |q| ≤ 2 ^ n) : |rnd f q| ≤ 2 ^ n :=
  abs_rnd_le_of_rep rep_pow2_nat h

/-- `halley` of two finite numbers of moderate size -/
theorem halley_is (hf : f.exact = false) {r1 r2 : FV f} {R R2 : ℚ} (h1 : Is r1 R) (h2 : Is r2 R2) (b1 : |R| ≤ 2 ^ 10) (b2 : |R2| ≤ 2 ^ 10) :
    ∃ g : ℚ, Is (halley r1 r2) (rnd f (R / g)) ∧ 7999 / 10000 ≤ g ∧ g ≤ 12001 / 10000 := by
  have x1 : |1 / 2 * R| ≤ 2 ^ 10 := by rw [abs_mul]; norm_num; norm_num at b1; linarith
  have n1 := rnd_abs_le_two (f := f) _ x1
  have i1 := (is_d_half (f := f)).mul h1 (nov (x1.trans (by norm_num)))
  have x2 : |rnd f (1 / 2 * R) * R2| ≤ 2 ^ 20 := by
    rw [abs_mul, show (2:ℚ) ^ 20 = 2 ^ 10 * 2 ^ 10 by norm_num]; gcongr
  have n2 := rnd_abs_le_two (f := f) _ x2
  have i2 := i1.mul h2 (nov (x2.trans (by norm_num)))
  have x3 : |((1:ℤ):ℚ) - rnd f (rnd f (1 / 2 * R) * R2)| ≤ 2 ^ 21 := by
    have := abs_sub ((1:ℤ):ℚ) (rnd f (rnd f (1 / 2 * R) * R2))
    norm_num at this n2 ⊢
    linarith
  have i3 := (is_i (f := f) (n := 1) (by norm_num)).sub i2 (nov (x3.trans (by norm_num)))
  obtain ⟨g, ig, g1, g2⟩ := clamp_is hf i3
  refine ⟨g, h1.div ig (by linarith) (nov ?_), g1, g2⟩
  have g0 : 0 < g := by linarith
  rw [abs_div, abs_of_pos g0, div_le_iff₀ g0]
  norm_num at b1 ⊢
  linarith

/-- `erf_inv_deriv_1` -/
theorem ei_deriv (hf : f.exact = false) {w : ℚ} {z : Bool} (hw : Valid (fin w z : FV f)) (w0 : 0 ≤ w) (w1 : w ≤ 1341 / 1000) :
    ∃ D : ℚ, erf_inv_deriv_1 (fin w z : FV f) = .ok (fin D false) ∧ 1 / 10 ≤ D ∧ D ≤ 2 ∧
      |(D:ℝ) - Real.exp (-(w:ℝ) ^ 2)| ≤ 145 * uro f * Real.exp (-(w:ℝ) ^ 2) := by
  have u0 := uro_pos_real f
  have u1 := uro7_real f
  have b : |-w * w| ≤ 2 ^ 1 := by rw [abs_mul, abs_neg, abs_of_nonneg w0]; nlinarith
  obtain ⟨z', e⟩ : Is (-(fin w z : FV f) * fin w z) (rnd f (-w * w)) := ((is_fin w z).neg).mul (is_fin w z) (nov (b.trans (by norm_num)))
  have hv : Valid (fin (rnd f (-w * w)) z' : FV f) := by rw [← e]; exact valid_mul _ _
  have wr0 : (0:ℝ) ≤ w := by exact_mod_cast w0
  have wr1 : (w:ℝ) ≤ 1341 / 1000 := by have := (Rat.cast_le (K := ℝ)).2 w1; push_cast at this; exact this
  have t2 : (w:ℝ) ^ 2 ≤ 17983 / 10000 := by nlinarith
  have er := rnd_all_real f (-w * w)
  have et : ((-w * w : ℚ) : ℝ) = -(w:ℝ) ^ 2 := by push_cast; ring
  have ab : |-(w:ℝ) ^ 2| = (w:ℝ) ^ 2 := by rw [abs_neg, abs_of_nonneg (sq_nonneg _)]
  rw [et, ab] at er
  have er' : |((rnd f (-w * w) : ℚ) : ℝ) - -(w:ℝ) ^ 2| ≤ 18 / 10 * uro f := er.trans (by nlinarith)
  have m1 : (86:ℝ) ≤ expMin f.ty := by exact_mod_cast expMin_ge f.ty
  have m2 : (expMin f.ty : ℝ) ≤ expMax f.ty := by exact_mod_cast (expMin_le f.ty).2
  obtain ⟨D, e1, D0, hD⟩ := exp_of_lgamma hf hv (by linarith) er' (by linarith) (by linarith [sq_nonneg (w:ℝ)])
  rw [ab] at hD
  have Ep := Real.exp_pos (-(w:ℝ) ^ 2)
  have hD' : |(D:ℝ) - Real.exp (-(w:ℝ) ^ 2)| ≤ 145 * uro f * Real.exp (-(w:ℝ) ^ 2) := by
    refine hD.trans ?_
    gcongr
    nlinarith
  have E1 : Real.exp (-(w:ℝ) ^ 2) ≤ 1 := Real.exp_le_one_iff.2 (by linarith [sq_nonneg (w:ℝ)])
  have E2 : 135 / 1000 ≤ Real.exp (-(w:ℝ) ^ 2) := by
    have h3 : Real.exp (-2) ≤ Real.exp (-(w:ℝ) ^ 2) := Real.exp_le_exp.2 (by linarith)
    have h4 : (135 / 1000 : ℝ) ≤ Real.exp (-2) := by
      rw [Real.exp_neg, le_inv_comm₀ (by norm_num) (Real.exp_pos _)]
      exact exp_two_le.trans (by norm_num)
    linarith
  have h5 := abs_le.1 hD'
  have h6 : 145 * (uro f : ℝ) * Real.exp (-(w:ℝ) ^ 2) ≤ 1 / 1000 * 1 := by gcongr; linarith
  refine ⟨D, ?_, ?_, ?_, hD'⟩
  · unfold erf_inv_deriv_1; rw [e]; exact e1
  · have : (1 / 10 : ℝ) ≤ D := by linarith
    exact (Rat.cast_le (K := ℝ)).1 (by push_cast; exact this)
  · have : (D:ℝ) ≤ 2 := by linarith
    exact_mod_cast this

theorem abs_rat_le {q b : ℚ} (h : |(q:ℝ)| ≤ b) : |q| ≤ b := by exact_mod_cast h

/-- one step of the iteration in floating point -/
theorem ei_step (hf : f.exact = false) {p v D : ℚ} {zp zv : Bool} {y w K Eb : ℝ} (hv : Valid (fin v zv : FV f))
    (y1 : 1 / 2 ^ 102 ≤ y) (hy : y ≤ 133 / 100) (hp : erfR y = p) (hvy : |(v:ℝ) - y| ≤ y / 125) (hwy : |w - y| ≤ y / 125)
    (hD : |(D:ℝ) - Real.exp (-w ^ 2)| ≤ 145 * uro f * Real.exp (-w ^ 2)) (D1 : 1 / 10 ≤ D) (D2 : D ≤ 2)
    (K0 : 0 ≤ K) (K1 : K ≤ 1000) (hK : (erfK v : ℝ) ≤ K) (hb : Real.exp (w ^ 2) ≤ Eb) :
    ∃ (r1 : FV f) (v' : ℚ) (z' : Bool), erf_inv_ratio_val_1 (fin v zv : FV f) (fin p zp) (fin D false) = .ok r1 ∧
      (fin v zv : FV f) - halley r1 (erf_inv_ratio_val_2 (fin v zv) (fin D false)) = fin v' z' ∧ Valid (fin v' z' : FV f) ∧
      |(v':ℝ) - y| ≤ 4958 / 10000 * |(v:ℝ) - y| + (14223 / 10000 * K * Eb + 102 / 100) * uro f * y := by
  have u0 := uro_pos_real f
  have u1 := uro7_real f
  have y0 : 0 < y := lt_of_lt_of_le (by positivity) y1
  have v1 := abs_le.1 hvy
  have w1 := abs_le.1 hwy
  have vlo : (1 / 2 ^ 103 : ℝ) ≤ v := by
    have : (1 / 2 ^ 103 : ℝ) ≤ 124 / 125 * (1 / 2 ^ 102) := by norm_num
    linarith
  have vlo' : 1 / 2 ^ 103 ≤ v := by exact_mod_cast (by push_cast; exact vlo : ((1 / 2 ^ 103 : ℚ) : ℝ) ≤ v)
  have v0 : 0 < v := lt_of_lt_of_le (by positivity) vlo'
  have vhi : (v:ℝ) ≤ 1341 / 1000 := by linarith
  have vhi' : v ≤ 1341 / 1000 := by exact_mod_cast (by push_cast; exact vhi : (v:ℝ) ≤ ((1341 / 1000 : ℚ) : ℝ))
  have va : |v| = v := abs_of_pos v0
  obtain ⟨E, eE, hE⟩ := C71_accuracy hf v zv hv (by rw [va]; exact (minNormal_le' f).trans (le_trans (by norm_num) vlo'))
    (by rw [va]; linarith)
  have ev0 : 0 ≤ erfR v := by have := erfR_mono (le_trans (by positivity) vlo); rwa [erfR_zero] at this
  have ev1 := erfR_lt_one v
  rw [va, ← uro_eq, abs_of_nonneg ev0] at hE
  have hE' : |(E:ℝ) - erfR v| ≤ K * uro f * erfR v := hE.trans (by gcongr)
  have Eb1 := abs_le.1 hE'
  have ku : K * uro f * erfR v ≤ 1000 * (1 / 10 ^ 7) * 1 := by gcongr
  have hEp : |((E - p : ℚ) : ℝ)| ≤ 2 := by
    push_cast; rw [← hp]
    have p0 : 0 ≤ erfR y := by have := erfR_mono y0.le; rwa [erfR_zero] at this
    have p1 := erfR_lt_one y
    exact abs_le.2 ⟨by linarith, by linarith⟩
  have hEp' : |E - p| ≤ 2 ^ 1 := by exact_mod_cast hEp
  have D0 : 0 < D := by linarith
  -- the ratio
  have iS := (is_fin (f := f) E false).sub (is_fin p zp) (nov (hEp'.trans (by norm_num)))
  have nS := rnd_abs_le_two (f := f) _ hEp'
  have xR : |rnd f (E - p) / D| ≤ 2 ^ 5 := by
    rw [abs_div, abs_of_pos D0, div_le_iff₀ D0]; norm_num at nS ⊢; linarith
  have iR := iS.div (is_fin D false) D0.ne' (nov (xR.trans (by norm_num)))
  have nR := rnd_abs_le_two (f := f) _ xR
  -- the second ratio
  have x1 : |-((2:ℤ):ℚ) * v| ≤ 2 ^ 2 := by rw [abs_mul, va]; norm_num; linarith
  have j1 := ((is_i (f := f) (n := 2) (by norm_num)).neg).mul (is_fin v zv) (nov (x1.trans (by norm_num)))
  have n1 := rnd_abs_le_two (f := f) _ x1
  have x2 : |D * rnd f (-((2:ℤ):ℚ) * v)| ≤ 2 ^ 3 := by
    rw [abs_mul, abs_of_pos D0, show (2:ℚ) ^ 3 = 2 * 2 ^ 2 by norm_num]; gcongr
  have j2 := (is_fin (f := f) D false).mul j1 (nov (x2.trans (by norm_num)))
  have n2 := rnd_abs_le_two (f := f) _ x2
  have x3 : |rnd f (D * rnd f (-((2:ℤ):ℚ) * v)) / D| ≤ 2 ^ 7 := by
    rw [abs_div, abs_of_pos D0, div_le_iff₀ D0]; norm_num at n2 ⊢; linarith
  have j3 := j2.div (is_fin D false) D0.ne' (nov (x3.trans (by norm_num)))
  have n3 := rnd_abs_le_two (f := f) _ x3
  obtain ⟨g, ig, g1, g2⟩ := halley_is hf iR j3 (nR.trans (by norm_num)) (n3.trans (by norm_num))
  have g0 : 0 < g := by linarith
  have x4 : |rnd f (rnd f (E - p) / D) / g| ≤ 2 ^ 6 := by
    rw [abs_div, abs_of_pos g0, div_le_iff₀ g0]; norm_num at nR ⊢; linarith
  have n4 := rnd_abs_le_two (f := f) _ x4
  have x5 : |v - rnd f (rnd f (rnd f (E - p) / D) / g)| ≤ 2 ^ 7 := by
    have := abs_sub v (rnd f (rnd f (rnd f (E - p) / D) / g))
    rw [va] at this
    norm_num at n4 ⊢
    linarith
  obtain ⟨z', e'⟩ := (is_fin (f := f) v zv).sub ig (nov (x5.trans (by norm_num)))
  refine ⟨(fin E false - fin p zp) / fin D false, _, z', ?_, e', ?_, ?_⟩
  · unfold erf_inv_ratio_val_1; rw [eE]; rfl
  · have : Valid ((fin v zv : FV f) - halley ((fin E false - fin p zp) / fin D false) (erf_inv_ratio_val_2 (fin v zv) (fin D false))) :=
      valid_sub _ _
    exact (show (fin v zv : FV f) - halley ((fin E false - fin p zp) / fin D false) (erf_inv_ratio_val_2 (fin v zv) (fin D false)) =
      fin _ z' from e') ▸ this
  · have hS := rnd_tiny_real f (E - p)
    have hR := rnd_tiny_real f (rnd f (E - p) / D)
    have hd := rnd_tiny_real f (rnd f (rnd f (E - p) / D) / g)
    have hvv := rnd_sub_real' (f := f) hv.rep (rep_rnd f (rnd f (rnd f (E - p) / D) / g))
    clear e' ig iR iS j3 j2 j1 x5 x4 n4 n3 x3 n2 x2 n1 x1 nR xR nS
    generalize rnd f (v - rnd f (rnd f (rnd f (E - p) / D) / g)) = V at *
    generalize rnd f (rnd f (rnd f (E - p) / D) / g) = dir at *
    generalize rnd f (rnd f (E - p) / D) = R at *
    generalize rnd f (E - p) = S at *
    push_cast at hS hR hd hvv
    exact ei_real y1 hy (by linarith) (by linarith) (by linarith) (by linarith) hp u0.le u1 hD
      (by exact_mod_cast (by push_cast; linarith [show ((1 / 10 : ℚ):ℝ) ≤ D from by exact_mod_cast D1] : (1 / 10 : ℝ) ≤ D))
      (by have := (Rat.cast_le (K := ℝ)).2 g1; push_cast at this; exact this)
      (by have := (Rat.cast_le (K := ℝ)).2 g2; push_cast at this; exact this) K0 hE' hS hR hd hvv hb

/-- the whole iteration -/
theorem ei_recur (hf : f.exact = false) {p : ℚ} {zp : Bool} {y K Eb F : ℝ}
    (y1 : 1 / 2 ^ 102 ≤ y) (hy : y ≤ 133 / 100) (hp : erfR y = p)
    (K0 : 0 ≤ K) (K1 : K ≤ 1000) (hK : ∀ v : ℚ, 0 < v → (v:ℝ) ≤ 126 / 125 * y → (erfK v : ℝ) ≤ K)
    (hb : ∀ w : ℝ, 0 ≤ w → w ≤ 126 / 125 * y → Real.exp (w ^ 2) ≤ Eb)
    (hF : 5042 / 10000 * F = (14223 / 10000 * K * Eb + 102 / 100) * uro f * y) (hF2 : F ≤ y / 500) :
    ∀ (left : ℕ) (v D : ℚ) (zv : Bool) (e w : ℝ), Valid (fin v zv : FV f) → |(v:ℝ) - y| ≤ e → e ≤ y / 125 → |w - y| ≤ y / 125 →
      |(D:ℝ) - Real.exp (-w ^ 2)| ≤ 145 * uro f * Real.exp (-w ^ 2) → 1 / 10 ≤ D → D ≤ 2 →
      ∃ (r : ℚ) (z : Bool), erf_inv_recur (fin p zp : FV f) left (fin v zv) (fin D false) = .ok (fin r z) ∧
        |(r:ℝ) - y| ≤ (4958 / 10000) ^ (left + 1) * (e - F) + F := by
  have y0 : 0 < y := lt_of_lt_of_le (by positivity) y1
  have vpos : ∀ v : ℚ, |(v:ℝ) - y| ≤ y / 125 → 0 < v := fun v h => by
    have := abs_le.1 h
    exact_mod_cast (by linarith : (0:ℝ) < v)
  intro left
  induction left with
  | zero =>
    intro v D zv e w hv hve he hwy hD D1 D2
    have hvy := hve.trans he
    have hvy' := abs_le.1 hvy
    have hw := abs_le.1 hwy
    obtain ⟨r1, v', z', e1, e2, -, b⟩ := ei_step (zp := zp) hf hv y1 hy hp hvy hwy hD D1 D2 K0 K1 (hK v (vpos v hvy) (by linarith))
      (hb w (by linarith) (by linarith))
    refine ⟨v', z', ?_, ?_⟩
    · unfold erf_inv_recur; rw [e1]; exact congrArg Except.ok e2
    · rw [← hF] at b
      refine b.trans ?_
      simp only [zero_add, pow_one]
      linarith
  | succ n ih =>
    intro v D zv e w hv hve he hwy hD D1 D2
    have hvy := hve.trans he
    have hvy' := abs_le.1 hvy
    have hw := abs_le.1 hwy
    have v0 := vpos v hvy
    obtain ⟨r1, v', z', e1, e2, hv', b⟩ := ei_step (zp := zp) hf hv y1 hy hp hvy hwy hD D1 D2 K0 K1 (hK v v0 (by linarith))
      (hb w (by linarith) (by linarith))
    rw [← hF] at b
    have b' : |(v':ℝ) - y| ≤ 4958 / 10000 * e + 5042 / 10000 * F := b.trans (by linarith)
    obtain ⟨D', eD, D1', D2', hD'⟩ := ei_deriv hf hv v0.le (by
      exact_mod_cast (by push_cast; linarith : (v:ℝ) ≤ ((1341 / 1000 : ℚ) : ℝ)))
    obtain ⟨r, z, er, br⟩ := ih v' D' z' _ v hv' b' (by linarith) hvy hD' D1' D2'
    refine ⟨r, z, ?_, br.trans (le_of_eq ?_)⟩
    · rw [← er, ← e2]
      conv_lhs => unfold erf_inv_recur
      rw [e1]
      simp only []
      change (erf_inv_deriv_1 (fin v zv) >>= fun d1 => _) = _
      rw [eD]
      rfl
    · rw [pow_succ _ (n + 1)]; ring

end Gcem.Props
