import Verif.Props.IgammaLow
import Verif.Props.IbetaAcc
import Verif.Props.Dist

/-! # C100: incomplete_gamma near zero -/

namespace Gcem.Props
open FV Ku

variable {f : Fmt}

/-- error of the exponent -/
noncomputable def smD (f : Fmt) (a z : ℝ) : ℝ :=
  (113 + 40 * a + 91 / 10 * (a * |Real.log z|) + 31 / 10 * z + 251 / 10 * (a * Real.log (a + 6))) * uro f + 18 / 10 ^ 15

theorem sm_expo (hf : f.exact = false) {a z : ℚ} {wa wz : Bool} (ha : Valid (fin a wa : FV f)) (hz : Valid (fin z wz : FV f))
    (a1 : 1 / 2 ≤ a) (a2 : a ≤ 2 ^ 20) (z1 : 1 / 2 ^ 100 ≤ z) (z2 : z < 1 / 2)
    (ht : ∀ e : ℤ, 1 / 10000 * (10:ℚ) ^ e < |z - 10 ^ e|) (hD : smD f a z ≤ 1 / 1000) :
    ∃ l lg t : ℚ, ∃ w w' wt, log (fin z wz : FV f) = .ok (fin l w) ∧ lgamma (fin a wa : FV f) = .ok (fin lg w') ∧
      fin a wa * fin l w - fin z wz - fin lg w' = (fin t wt : FV f) ∧ Valid (fin t wt : FV f) ∧
      |(t:ℝ) - (a * Real.log z - z - Real.log (Real.Gamma a))| ≤ smD f a z := by
  have hu := uro_pos_real f
  have hu7 := uro7_real f
  have a1' : (1 / 2 : ℝ) ≤ a := by have := (Rat.cast_le (K := ℝ)).2 a1; push_cast at this; exact this
  have z1' : (1 / 2 ^ 100 : ℝ) ≤ z := by have := (Rat.cast_le (K := ℝ)).2 z1; push_cast at this; exact this
  have z0' : (0:ℝ) < z := lt_of_lt_of_le (by positivity) z1'
  have a2' : (a:ℝ) ≤ 2 ^ 20 := by have := (Rat.cast_le (K := ℝ)).2 a2; push_cast at this; exact this
  have z2' : (z:ℝ) ≤ 2 ^ 20 := by have := (Rat.cast_le (K := ℝ)).2 z2.le; push_cast at this; linarith
  obtain ⟨l, w, el, bl⟩ := ib_log hf hz z1 (fun _ => ht)
  obtain ⟨lg, w', eg, bg⟩ := C72_accuracy hf a wa ha a1 (a2.trans (by norm_num))
  rw [div_eq_mul_one_div _ ((2:ℝ) ^ f.prec), ← uro_eq, show 22 * (a:ℝ) * Real.log (a + 6) = 22 * (a * Real.log (a + 6)) by ring] at bg
  have hG := log_gamma_abs_le a1'
  have hL : |Real.log z| ≤ 2 ^ 20 := by
    have h1 := Real.log_le_sub_one_of_pos z0'
    have h2 : Real.log (1 / 2 ^ 100) ≤ Real.log z := Real.log_le_log (by positivity) z1'
    have h3 : Real.log (1 / 2 ^ 100) = -(100 * Real.log 2) := by rw [one_div, Real.log_inv, Real.log_pow]; norm_num
    have h4 := Real.log_two_lt_d9
    rw [abs_le]
    norm_num at z2' ⊢
    constructor <;> linarith
  have hG2 : (a:ℝ) * Real.log (a + 6) ≤ 2 ^ 41 := by
    have := Real.log_le_sub_one_of_pos (show (0:ℝ) < a + 6 by linarith)
    calc (a:ℝ) * Real.log (a + 6) ≤ 2 ^ 20 * 2 ^ 21 := by
          refine mul_le_mul a2' ?_ (Real.log_nonneg (by linarith)) (by norm_num)
          norm_num at a2' ⊢; linarith
      _ = _ := by norm_num
  have hx1 : |(a:ℝ) * l - a * Real.log z| ≤ (40 * a + 5 * (a * |Real.log z|)) * uro f := by
    rw [← mul_sub, abs_mul, abs_of_pos (show (0:ℝ) < a by linarith)]
    refine (mul_le_mul_of_nonneg_left bl (by linarith)).trans (le_of_eq (by ring))
  have hAL : |(a:ℝ) * Real.log z| = a * |Real.log z| := by rw [abs_mul, abs_of_pos (show (0:ℝ) < a by linarith)]
  have hAL2 : (a:ℝ) * |Real.log z| ≤ 2 ^ 40 := by
    calc (a:ℝ) * |Real.log z| ≤ 2 ^ 20 * 2 ^ 20 := mul_le_mul a2' hL (abs_nonneg _) (by norm_num)
      _ = _ := by norm_num
  have ep := rnd_all_real f (a * l)
  have es := rnd_all_real f (rnd f (a * l) - z)
  have et := rnd_all_real f (rnd f (rnd f (a * l) - z) - lg)
  have hp0 : 0 ≤ (a:ℝ) * |Real.log z| := by rw [← hAL]; exact abs_nonneg _
  have hg0 : 0 ≤ (a:ℝ) * Real.log (a + 6) := (abs_nonneg _).trans hG
  have i1 := fun h => (is_fin (f := f) a wa).mul (is_fin l w) h
  have i2 := fun h h' => (i1 h).sub (is_fin (f := f) z wz) h'
  have i3 := fun h h' h'' => (i2 h h').sub (is_fin (f := f) lg w') h''
  push_cast at ep es et
  unfold smD at hD ⊢
  generalize hv1 : rnd f (rnd f (a * l) - z) = v1 at *
  generalize hv2 : rnd f (v1 - lg) = v2 at *
  generalize hv0 : rnd f (a * l) = v0 at *
  have hpx : |(v0:ℝ) - a * Real.log z| ≤ (40 * a + 6 * (a * |Real.log z|) + 2 / 1000) * uro f := by
    have h1 := abs_sub_le (v0:ℝ) (a * l) (a * Real.log z)
    have h2 := abs_sub_abs_le_abs_sub ((a:ℝ) * l) (a * Real.log z)
    rw [hAL] at h2
    have h3 : |(a:ℝ) * l| ≤ a * |Real.log z| + 1 / 1000 := by
      have : (40 * a + 5 * (a * |Real.log z|)) * uro f ≤ 1 / 1000 := by
        refine le_trans ?_ hD
        have : (40 * a + 5 * (a * |Real.log z|)) * uro f ≤ (113 + 40 * a + 91 / 10 * (a * |Real.log z|) + 31 / 10 * z + 251 / 10 * (a * Real.log (a + 6))) * uro f :=
          mul_le_mul_of_nonneg_right (by linarith) hu.le
        linarith
      linarith
    have h4 := mul_le_mul_of_nonneg_left h3 hu.le
    linarith
  generalize hm : (a:ℝ) * |Real.log z| = m at *
  generalize hg : (a:ℝ) * Real.log (a + 6) = g at *
  have hmu : 0 ≤ m * uro f := by positivity
  have hgu : 0 ≤ g * uro f := by positivity
  have hau : 0 ≤ (a:ℝ) * uro f := mul_nonneg (by linarith) hu.le
  have hzu : 0 ≤ (z:ℝ) * uro f := mul_nonneg (by linarith) hu.le
  obtain ⟨k1, k2, k3⟩ := comb_err (x := v0) (y := -z) (z := lg) (A := a * Real.log z) (B := -z) (C := Real.log (Real.Gamma a))
    (e := (40 * a + 6 * m + 2 / 1000 + 111 + 22 * g) * uro f + 18 / 10 ^ 15) (M := m + z + g) (s := v1) (t := v2) hu hu7
    (by rw [sub_self, abs_zero]; linarith) (by rw [hAL, abs_neg, abs_of_nonneg (show (0:ℝ) ≤ z by linarith)]; linarith)
    (by linarith) (by norm_num at hD ⊢; linarith)
    (by rw [← sub_eq_add_neg]; exact es) et
  have hv1b : |v1 - lg| ≤ 2 ^ 127 := by
    rw [← Rat.cast_le (K := ℝ)]; push_cast
    have := abs_sub (v1:ℝ) lg
    norm_num at z2' hAL2 hG2 ⊢
    linarith
  have hal : |a * l| ≤ 2 ^ 127 := by
    rw [← Rat.cast_le (K := ℝ)]; push_cast
    have h2 := abs_sub_abs_le_abs_sub ((a:ℝ) * l) (a * Real.log z)
    rw [hAL] at h2
    generalize |(a:ℝ) * l| = x at *
    norm_num at z2' a2' hAL2 hG2 hD ⊢
    linarith
  have hvz : |v0 - z| ≤ 2 ^ 127 := by
    rw [← Rat.cast_le (K := ℝ)]; push_cast
    have h2 := abs_sub_abs_le_abs_sub (v0:ℝ) (a * Real.log z)
    rw [hAL] at h2
    have := abs_sub (v0:ℝ) z
    rw [abs_of_nonneg (show (0:ℝ) ≤ z by linarith)] at this
    norm_num at z2' a2' hAL2 hG2 hD ⊢
    linarith
  obtain ⟨wt, et'⟩ := i3 (hv0 ▸ nov hal) (hv1 ▸ nov hvz) (hv2 ▸ nov hv1b)
  refine ⟨l, lg, v2, w, w', wt, el, eg, et', et' ▸ valid_sub _ _, ?_⟩
  rw [sub_eq_add_neg (_ * _ : ℝ) (z:ℝ)]
  refine k1.trans ?_
  linarith


/-- the exact value as a quotient, and bounds for the exponent -/
theorem sm_real {a z : ℝ} {c : ℕ} (hL : IgLow a z c) (a2 : a ≤ 10) (z2 : z ≤ 1 / 2) (hl : -42 ≤ a * Real.log z) :
    (∫ t in Set.Ioc 0 z, Real.exp (-t) * t ^ (a - 1)) / Real.Gamma a = Real.exp (a * Real.log z - z - Real.log (Real.Gamma a)) / KT a z 1 ∧
    |a * Real.log z - z - Real.log (Real.Gamma a)| ≤ a * |Real.log z| + z + a * Real.log (a + 6) ∧
    -71 ≤ a * Real.log z - z - Real.log (Real.Gamma a) ∧ a * Real.log z - z - Real.log (Real.Gamma a) ≤ 28 ∧
    a * |Real.log z| ≤ 42 ∧ 0 ≤ a * |Real.log z| ∧ a * Real.log (a + 6) ≤ 278 / 10 ∧ 0 ≤ a * Real.log (a + 6) := by
  have a1 := hL.a0'
  have ha := hL.ap
  have hz := hL.z0
  have hG := log_gamma_abs_le a1
  have hΓ : 0 < Real.Gamma a := Real.Gamma_pos_of_pos ha
  have l2 := Real.log_two_lt_d9
  have hlz : Real.log z ≤ 0 := Real.log_nonpos hz.le (by linarith)
  have hl6 : Real.log (a + 6) ≤ 4 * Real.log 2 := by
    rw [← Real.log_rpow (by norm_num)]; exact Real.log_le_log (by linarith) (by norm_num; linarith)
  have b3 : a * |Real.log z| = -(a * Real.log z) := by rw [abs_of_nonpos hlz]; ring
  have b0 : a * Real.log z ≤ 0 := mul_nonpos_of_nonneg_of_nonpos ha.le hlz
  have c1 := abs_le.1 hG
  have c3 : a * Real.log (a + 6) ≤ 10 * (4 * Real.log 2) := mul_le_mul a2 hl6 (Real.log_nonneg (by linarith)) (by norm_num)
  have c4 : 0 ≤ a * Real.log (a + 6) := mul_nonneg ha.le (Real.log_nonneg (by linarith))
  refine ⟨?_, ?_, by linarith, by linarith, by linarith, by linarith, by linarith, c4⟩
  · rw [KT_one]
    have h := lo_eq ha hz
    have hM := ku_ge_one (k := 1) (b := a + 1) zero_le_one (by linarith) (by linarith) hL.zp
    unfold lo at h
    rw [show a * Real.log z - z - Real.log (Real.Gamma a) = Real.log z * a + -z - Real.log (Real.Gamma a) by ring,
      Real.exp_sub, Real.exp_add, Real.exp_log hΓ, ← Real.rpow_def_of_pos hz]
    generalize z ^ a = x at *
    generalize ku 1 (a + 1) z = M at *
    rw [div_div_eq_mul_div, div_mul_eq_mul_div, ← h]
    field_simp
  · rw [abs_le, b3]; constructor <;> linarith

theorem exp_neg_71 : (1 / 2 ^ 103 : ℝ) ≤ Real.exp (-71) := by
  have h := Real.exp_one_lt_d9
  rw [Real.exp_neg, show (71:ℝ) = ((71:ℕ):ℝ) * 1 by norm_num, Real.exp_nat_mul, one_div]
  refine inv_anti₀ (by positivity) ?_
  have : Real.exp 1 ^ 71 ≤ (2719 / 1000 : ℝ) ^ 71 := pow_le_pow_left₀ (Real.exp_pos _).le (by norm_num at h; linarith) _
  refine this.trans (by norm_num)

/-- C100: for `z` between `2^-100` and `1/2`, not next to a power of ten, the relative error is a multiple of the unit roundoff. -/
theorem C100_accuracy (hf : f.exact = false) (a z : ℚ) (wa wz : Bool) (ha : Valid (fin a wa : FV f)) (hz : Valid (fin z wz : FV f))
    (a1 : 1 / 2 ≤ a) (a2 : a < 10) (z1 : 1 / 2 ^ 100 ≤ z) (z2 : z < 1 / 2) (ht : ∀ e : ℤ, 1 / 10000 * (10:ℚ) ^ e < |z - 10 ^ e|)
    (hl : -42 ≤ (a:ℝ) * Real.log z) :
    ∃ r w, incomplete_gamma (fin a wa : FV f) (fin z wz) = .ok (fin r w) ∧
      |(r:ℝ) - (∫ t in Set.Ioc 0 (z:ℝ), Real.exp (-t) * t ^ ((a:ℝ) - 1)) / Real.Gamma a| ≤
        ((940 + 52 * a + 17 * (a * |Real.log z|) + 38 * (a * Real.log (a + 6))) / 2 ^ f.prec + 24 / 10 ^ 15) *
          ((∫ t in Set.Ioc 0 (z:ℝ), Real.exp (-t) * t ^ ((a:ℝ) - 1)) / Real.Gamma a) := by
  have hu := uro_pos_real f
  have hu7 := uro7_real f
  have a1' : (1 / 2 : ℝ) ≤ a := by have := (Rat.cast_le (K := ℝ)).2 a1; push_cast at this; exact this
  have a2' : (a:ℝ) < 10 := by exact_mod_cast a2
  have z1' : (1 / 2 ^ 100 : ℝ) ≤ z := by have := (Rat.cast_le (K := ℝ)).2 z1; push_cast at this; exact this
  have z0' : (0:ℝ) < z := lt_of_lt_of_le (by positivity) z1'
  have z2' : (z:ℝ) ≤ 1 / 2 := by have := (Rat.cast_le (K := ℝ)).2 z2.le; push_cast at this; exact this
  have hL : IgLow a z ⌊(a:ℝ) - 1 / 2⌋₊ := by
    have h1 := Nat.floor_le (show (0:ℝ) ≤ (a:ℝ) - 1 / 2 by linarith)
    have h2 := Nat.lt_floor_add_one ((a:ℝ) - 1 / 2)
    refine ⟨?_, by linarith, by linarith, z0', by linarith⟩
    rw [Nat.floor_lt (by linarith)]; push_cast; linarith
  have hbr := lg_branch1 (f := f) (wa := wa) (wz := wz) a1 a2 z1 (by norm_num; linarith)
  have hM1 := ku_ge_one (k := 1) (b := (a:ℝ) + 1) zero_le_one (by linarith) (by linarith) hL.zp
  have hM2 : ku 1 ((a:ℝ) + 1) z ≤ 3 / 2 := by
    have h1 := ku_one_rec (b := (a:ℝ) + 1) (by linarith) hL.zp
    have h2 := ku_one_mono (b := (a:ℝ) + 1) (b' := a + 1 + 1) (by linarith) (by linarith) hL.zp le_rfl
    have h3 : (z:ℝ) / (a + 1) ≤ 1 / 3 := by rw [div_le_iff₀ (by linarith)]; linarith
    have h4 := ku_ge_one (k := 1) (b := (a:ℝ) + 1 + 1) zero_le_one (by linarith) (by linarith) hL.zp
    have h6 := mul_le_mul h3 h2 (by linarith) (by norm_num)
    linarith
  obtain ⟨hP, hv1, hv2, hv3, m1, m0, g1, g0⟩ := sm_real hL a2'.le z2' hl
  have hem := expMin_ge f.ty
  have hem2 := (expMin_le f.ty).2
  have hD2 : smD f a z ≤ 1 / 1000 := by
    unfold smD
    have := mul_le_mul (show (113 + 40 * a + 91 / 10 * (a * |Real.log z|) + 31 / 10 * z + 251 / 10 * (a * Real.log (a + 6)) : ℝ) ≤ 1800 by linarith) hu7 hu.le (by norm_num)
    norm_num only at this ⊢
    linarith
  obtain ⟨l, lg, t, w, w', wt, el, eg, et, vt, bt⟩ := sm_expo hf ha hz a1 (by norm_num; linarith) z1 z2 ht hD2
  obtain ⟨e, ee, e0, be⟩ := exp_of_lgamma hf vt hD2 bt (by linarith) (by linarith)
  obtain ⟨τ, iτ, bτ⟩ := lg_cf_one (wz := wz) ha hL
  have hT := KT_pos hL.ap hL.zp (d := 1) le_rfl
  have hT1 := KT_one (a:ℝ) z
  rw [hP]
  have hE := Real.exp_pos ((a:ℝ) * Real.log z - z - Real.log (Real.Gamma a))
  have hE2 : (1 / 2 ^ 103 : ℝ) ≤ Real.exp ((a:ℝ) * Real.log z - z - Real.log (Real.Gamma a)) :=
    exp_neg_71.trans (Real.exp_le_exp.2 hv2)
  have hE3 : Real.exp ((a:ℝ) * Real.log z - z - Real.log (Real.Gamma a)) ≤ KT a z 1 := by
    have hK := UG.K_pos hL.ap z0' 0
    have hc := UG.K_compl hL.ap z0'
    have hΓ : 0 < Real.Gamma (a:ℝ) := Real.Gamma_pos_of_pos hL.ap
    rw [← div_le_one hT, ← hP, div_le_one hΓ]
    linarith
  unfold smD at be
  generalize (a:ℝ) * Real.log z - z - Real.log (Real.Gamma a) = v at *
  generalize (a:ℝ) * |Real.log z| = m at *
  generalize (a:ℝ) * Real.log (a + 6) = g at *
  have mu := mul_nonneg m0 hu.le
  have gu := mul_nonneg g0 hu.le
  have au : 0 ≤ (a:ℝ) * uro f := mul_nonneg (by linarith) hu.le
  have zu : (z:ℝ) * uro f ≤ 1 / 2 * uro f := mul_le_mul_of_nonneg_right z2' hu.le
  have be' : |(e:ℝ) - Real.exp v| ≤ ((2506 / 10 + 4008 / 100 * a + 1314 / 100 * m + 2918 / 100 * g) * uro f + 1804 / 10 ^ 17) * Real.exp v := by
    refine be.trans (mul_le_mul_of_nonneg_right ?_ hE.le)
    have h1 := mul_le_mul_of_nonneg_right hv1 hu.le
    norm_num only
    linarith
  have hε : (2506 / 10 + 4008 / 100 * a + 1314 / 100 * m + 2918 / 100 * g) * uro f + 1804 / 10 ^ 17 ≤ (1 / 100 : ℝ) := by
    have := mul_le_mul (show (2506 / 10 + 4008 / 100 * a + 1314 / 100 * m + 2918 / 100 * g : ℝ) ≤ 3000 by linarith) hu7 hu.le (by norm_num)
    norm_num only at this ⊢
    linarith
  have hδ : (312 * uro f + 2 / 10 ^ 20) * ku 1 (a + 1) z ≤ (468 * uro f + 3 / 10 ^ 20 : ℝ) := by
    have := mul_le_mul_of_nonneg_left hM2 (show (0:ℝ) ≤ 312 * uro f + 2 / 10 ^ 20 by positivity)
    linarith
  have hδ2 : (468 * uro f + 3 / 10 ^ 20 : ℝ) ≤ 2240 / 10000 := by norm_num only at hu7 ⊢; linarith
  have hTu : KT a z 1 ≤ 10 := by
    rw [hT1, div_le_iff₀ (by linarith)]; linarith
  obtain ⟨r, w1, e1, hfin⟩ := lg_div e0 iτ hT hE be' (bτ.trans (mul_le_mul_of_nonneg_right hδ hT.le)) hε hδ2 (by
      have : (0:ℝ) ≤ a := by linarith
      positivity) (by positivity) hE2 hE3 hTu
  refine ⟨r, w1, ?_, hfin.trans (mul_le_mul_of_nonneg_right ?_ (div_pos hE hT).le)⟩
  · rw [hbr]
    exact lg_eval el eg et ee e1
  · rw [div_eq_mul_one_div _ ((2:ℝ) ^ f.prec), ← uro_eq]
    norm_num only
    linarith

/-- C100: the probability that a Poisson variable with a small mean `z` is at least `n`, with a relative error bound. -/
theorem C100_poisson (hf : f.exact = false) (n : ℕ) (z : ℚ) (wz : Bool) (hz : Valid (fin z wz : FV f)) (n1 : 1 ≤ n) (n2 : n < 10)
    (z1 : 1 / 500 ≤ z) (z2 : z < 1 / 2) (t1 : 1 / 10 ^ 5 < |z - 1 / 10|) (t2 : 1 / 10 ^ 6 < |z - 1 / 100|) (hl : 1 / 10 ^ 18 ≤ z ^ n) :
    ∃ r w, incomplete_gamma (fin (n:ℚ) false : FV f) (fin z wz) = .ok (fin r w) ∧
      |(r:ℝ) - (1 - ∑ k ∈ Finset.range n, Real.exp (-z) * (z:ℝ) ^ k / k.factorial)| ≤
        ((940 + 160 * n + 17 * (n * |Real.log z|)) / 2 ^ f.prec + 24 / 10 ^ 15) *
          (1 - ∑ k ∈ Finset.range n, Real.exp (-z) * (z:ℝ) ^ k / k.factorial) := by
  have hv : Valid (fin (n:ℚ) false : FV f) := by
    refine wh_valid_nat hf (le_trans n2.le ?_)
    rcases f with ⟨⟨⟩, ⟨⟩⟩ <;> first | (exact absurd hf (by decide)) | decide +kernel
  have n1' : (1:ℚ) ≤ n := by exact_mod_cast n1
  have z0 : (0:ℝ) < z := by exact_mod_cast (lt_of_lt_of_le (by norm_num) z1 : (0:ℚ) < z)
  have hlog : -42 ≤ (n:ℝ) * Real.log z := by
    have h1 : (1 / 10 ^ 18 : ℝ) ≤ (z:ℝ) ^ n := by have := (Rat.cast_le (K := ℝ)).2 hl; push_cast at this; exact this
    have h2 := Real.log_le_log (by positivity) h1
    rw [Real.log_pow, one_div, Real.log_inv, Real.log_pow] at h2
    have := log10_bounds
    push_cast at h2
    linarith
  obtain ⟨r, w, e, b⟩ := C100_accuracy hf (n:ℚ) z false wz hv hz (by linarith) (by exact_mod_cast n2) (le_trans (by norm_num) z1) z2
    (fun e => ds_ten z1 z2.le t1 t2 e) (by rw [Rat.cast_natCast]; exact hlog)
  refine ⟨r, w, e, ?_⟩
  simp only [Rat.cast_natCast] at b
  have eP := ds_P n1 z0
  rw [eP] at b
  have hP : 0 ≤ 1 - poissonLt n z := by
    rw [← eP]
    refine div_nonneg (MeasureTheory.setIntegral_nonneg measurableSet_Ioc fun x hx => ?_) (Real.Gamma_pos_of_pos (by exact_mod_cast n1)).le
    exact mul_nonneg (Real.exp_pos _).le (Real.rpow_nonneg hx.1.le _)
  refine b.trans (mul_le_mul_of_nonneg_right ?_ hP)
  have n2' : (n:ℝ) ≤ 10 := by exact_mod_cast n2.le
  have hl6 : Real.log (n + 6) ≤ 4 * Real.log 2 := by
    rw [← Real.log_rpow (by norm_num)]; exact Real.log_le_log (by positivity) (by norm_num; linarith)
  have l2 := Real.log_two_lt_d9
  have := mul_le_mul_of_nonneg_left (show Real.log ((n:ℝ) + 6) ≤ 2774 / 1000 by linarith) (Nat.cast_nonneg n)
  refine add_le_add (div_le_div_of_nonneg_right ?_ (by positivity)) le_rfl
  have : (0:ℝ) ≤ n := Nat.cast_nonneg n
  linarith

/-- rare events: three or more at rate 1/64, in float -/
example : ∃ r w, incomplete_gamma (fin ((3:ℕ):ℚ) false : FV binary32) (fin (1 / 64) false) = .ok (fin r w) ∧
    |(r:ℝ) - (1 - ∑ k ∈ Finset.range 3, Real.exp (-(1 / 64 : ℚ)) * ((1 / 64 : ℚ):ℝ) ^ k / k.factorial)| ≤
      ((940 + 160 * (3:ℕ) + 17 * ((3:ℕ) * |Real.log (1 / 64 : ℚ)|)) / 2 ^ 24 + 24 / 10 ^ 15) *
        (1 - ∑ k ∈ Finset.range 3, Real.exp (-(1 / 64 : ℚ)) * ((1 / 64 : ℚ):ℝ) ^ k / k.factorial) :=
  C100_poisson (f := binary32) rfl 3 (1 / 64) false (by constructor <;> decide +kernel) (by norm_num) (by norm_num) (by norm_num) (by norm_num)
    (by norm_num [abs_of_pos, abs_of_neg]) (by norm_num [abs_of_pos]) (by norm_num)

/-- a half-integer shape parameter -/
example : ∃ r w, incomplete_gamma (fin (5 / 2) false : FV binary64) (fin (1 / 4) false) = .ok (fin r w) ∧
    |(r:ℝ) - (∫ t in Set.Ioc 0 (((1 / 4 : ℚ)):ℝ), Real.exp (-t) * t ^ (((5 / 2 : ℚ):ℝ) - 1)) / Real.Gamma (5 / 2 : ℚ)| ≤
      ((940 + 52 * ((5 / 2 : ℚ):ℝ) + 17 * (((5 / 2 : ℚ):ℝ) * |Real.log (1 / 4 : ℚ)|) + 38 * (((5 / 2 : ℚ):ℝ) * Real.log (((5 / 2 : ℚ):ℝ) + 6))) / 2 ^ 53 + 24 / 10 ^ 15) *
        ((∫ t in Set.Ioc 0 (((1 / 4 : ℚ)):ℝ), Real.exp (-t) * t ^ (((5 / 2 : ℚ):ℝ) - 1)) / Real.Gamma (5 / 2 : ℚ)) :=
  C100_accuracy (f := binary64) rfl (5 / 2) (1 / 4) false false (by constructor <;> decide +kernel) (by constructor <;> decide +kernel)
    (by norm_num) (by norm_num) (by norm_num) (by norm_num) (fun e => ds_ten (by norm_num) (by norm_num) (by norm_num [abs_of_pos]) (by norm_num [abs_of_pos]) e)
    (by
      have h := ds_log_half (p := 1 / 2) (by norm_num)
      have e : Real.log ((1 / 4 : ℚ):ℝ) = 2 * Real.log (1 / 2) := by
        rw [show (((1 / 4 : ℚ)):ℝ) = (1 / 2) ^ 2 by norm_num, Real.log_pow]; norm_num
      rw [e]; push_cast; linarith)

end Gcem.Props
