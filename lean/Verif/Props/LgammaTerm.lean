import Verif.Analysis.LanczosFp
import Verif.Props.Gamma
import Verif.Props.LogAcc
import Verif.Props.TrigAcc
import Verif.Props.AtanAcc

/-!
# Rounding error of the terms of lgamma
-/

namespace Gcem.Props
open Gcem FV
variable {f : Fmt}

/-- `log` of any value from `1/2` up -/
theorem log_half_up {a : ℚ} {z : Bool} (hf : f.exact = false) (hx : Valid (fin a z : FV f)) (h : 1 / 2 ≤ a) :
    ∃ l w, log (fin a z : FV f) = .ok (fin l w) ∧ |(l : ℝ) - Real.log a| ≤ (15 + 5 * |Real.log a|) * uro f := by
  have hu := uro_pos_real f
  rcases le_or_gt 1 a with h1 | h1
  · obtain ⟨l, w, e, b⟩ := C37_ge_one hf a z hx h1
    rw [← uro_eq] at b
    rw [abs_of_nonneg (Real.log_nonneg (show (1:ℝ) ≤ a by exact_mod_cast h1))]
    exact ⟨l, w, e, b⟩
  · obtain ⟨l, w, e, b⟩ := C37_direct_range hf a z hx h (by linarith)
    rw [← uro_eq] at b
    refine ⟨l, w, e, b.trans ?_⟩
    have := abs_nonneg (Real.log a)
    nlinarith

theorem lg_arith1 {u S Λ X s l t p w : ℝ} (hu : 0 < u) (hu7 : u ≤ 1 / 10 ^ 7) (hΛ : 1 ≤ Λ) (hX : 4 ≤ X)
    (hs : |s - S| ≤ u * |S|) (hl : |l - Λ| ≤ (161 / 10 + 5 * Λ) * u) (hp : |p - s * l| ≤ u * |s * l| + u / 1000)
    (ht : |t - X| ≤ u * X) (hw : |w - (p - t)| ≤ u * |p - t| + u / 1000) :
    |w - (S * Λ - X)| ≤ (|S| * (162 / 10 + 83 / 10 * Λ) + 201 / 100 * X) * u := by
  have hS := abs_nonneg S
  have hSΛ : 0 ≤ |S| * Λ := by positivity
  have hul : (161 / 10 + 5 * Λ) * u ≤ 22 / 10 ^ 7 * Λ := by
    have : (161 / 10 + 5 * Λ) * u ≤ (22 * Λ) * (1 / 10 ^ 7) := mul_le_mul (by linarith) hu7 hu.le (by positivity)
    linarith
  have hs1 : |s| ≤ (1 + 1 / 10 ^ 7) * |S| := by
    have h1 := abs_sub_abs_le_abs_sub s S
    have h2 := mul_le_mul_of_nonneg_right hu7 hS
    linarith
  have hsl : |s * l - S * Λ| ≤ |S| * (162 / 10 + 61 / 10 * Λ) * u := by
    have e : s * l - S * Λ = s * (l - Λ) + (s - S) * Λ := by ring
    rw [e]
    refine (abs_add_le _ _).trans ?_
    rw [abs_mul, abs_mul, abs_of_pos (show 0 < Λ by linarith)]
    have h1 : |s| * |l - Λ| ≤ ((1 + 1 / 10 ^ 7) * |S|) * ((161 / 10 + 5 * Λ) * u) :=
      mul_le_mul hs1 hl (abs_nonneg _) (by positivity)
    have h2 : |s - S| * Λ ≤ u * |S| * Λ := mul_le_mul_of_nonneg_right hs (by linarith)
    have h3 : 0 ≤ |S| * u := by positivity
    have h4 : 0 ≤ |S| * Λ * u := by positivity
    norm_num at h1
    nlinarith
  have hsl2 : |S| * (162 / 10 + 61 / 10 * Λ) * u ≤ 1 / 10 ^ 5 * (|S| * Λ) := by
    have : |S| * (162 / 10 + 61 / 10 * Λ) * u ≤ (|S| * (23 * Λ)) * (1 / 10 ^ 7) :=
      mul_le_mul (mul_le_mul_of_nonneg_left (by linarith) hS) hu7 hu.le (by positivity)
    norm_num at this ⊢
    linarith
  have hsl3 : |s * l| ≤ (1 + 1 / 10 ^ 5) * (|S| * Λ) := by
    have h1 := abs_sub_abs_le_abs_sub (s * l) (S * Λ)
    rw [abs_mul S Λ, abs_of_pos (show 0 < Λ by linarith)] at h1
    linarith
  have hp2 : |p - S * Λ| ≤ |S| * (162 / 10 + 72 / 10 * Λ) * u + u / 1000 := by
    have h1 := abs_add_le (p - s * l) (s * l - S * Λ)
    rw [sub_add_sub_cancel] at h1
    have h2 := mul_le_mul_of_nonneg_left hsl3 hu.le
    have h4 : 0 ≤ |S| * Λ * u := by positivity
    norm_num only at h2
    linarith
  have hpt : |(p - t) - (S * Λ - X)| ≤ |S| * (162 / 10 + 72 / 10 * Λ) * u + u / 1000 + u * X := by
    have e : (p - t) - (S * Λ - X) = (p - S * Λ) - (t - X) := by ring
    rw [e]
    exact (abs_sub _ _).trans (add_le_add hp2 ht)
  have hpt2 : |p - t| ≤ (1 + 1 / 10 ^ 4) * (|S| * Λ + X) := by
    have h1 := abs_sub_abs_le_abs_sub (p - t) (S * Λ - X)
    have h2 : |S * Λ - X| ≤ |S| * Λ + X := by
      refine (abs_sub _ _).trans ?_
      rw [abs_mul, abs_of_pos (show 0 < Λ by linarith), abs_of_pos (show 0 < X by linarith)]
    have h3 : |S| * (162 / 10 + 72 / 10 * Λ) * u ≤ 3 / 10 ^ 5 * (|S| * Λ) := by
      have : |S| * (162 / 10 + 72 / 10 * Λ) * u ≤ (|S| * (24 * Λ)) * (1 / 10 ^ 7) :=
        mul_le_mul (mul_le_mul_of_nonneg_left (by linarith) hS) hu7 hu.le (by positivity)
      norm_num at this ⊢
      linarith
    have h4 : u * X ≤ 1 / 10 ^ 7 * X := mul_le_mul_of_nonneg_right hu7 (by linarith)
    have h5 : u / 1000 ≤ 1 / 10 ^ 7 * X := by norm_num at hu7 ⊢; linarith
    norm_num at h3 h4 h5 ⊢
    linarith
  have h1 := abs_add_le (w - (p - t)) ((p - t) - (S * Λ - X))
  rw [sub_add_sub_cancel] at h1
  have h2 := mul_le_mul_of_nonneg_left hpt2 hu.le
  have h4 : 0 ≤ |S| * Λ * u := by positivity
  have h5 : 4 * u ≤ X * u := mul_le_mul_of_nonneg_right hX hu.le
  norm_num only at h2
  linarith

theorem emin_real (f : Fmt) : ((pow2 f.emin / 2 : ℚ) : ℝ) ≤ uro f / 1000 := by
  have := (Rat.cast_le (K := ℝ)).2 (half_emin_uro f); push_cast at this ⊢; exact this

theorem uro7_real (f : Fmt) : (uro f:ℝ) ≤ 1 / 10 ^ 7 := by
  have := (Rat.cast_le (K := ℝ)).2 (uro_le7 f); push_cast at this; exact this

theorem rnd_all_real (f : Fmt) (q : ℚ) : |((rnd f q : ℚ) : ℝ) - q| ≤ uro f * |(q:ℝ)| + uro f / 1000 := by
  have h := (Rat.cast_le (K := ℝ)).2 (rnd_err_all (f := f) q)
  have h2 := emin_real f
  push_cast at h h2
  linarith

theorem rnd_add_real {a b : ℚ} (ha : Rep f a) (hb : Rep f b) :
    |((rnd f (a + b) : ℚ) : ℝ) - (a + b)| ≤ uro f * |(a + b : ℝ)| := by
  have h := (Rat.cast_le (K := ℝ)).2 (rnd_add_rel ha hb)
  push_cast at h
  exact h

theorem is_L_lan : Is (L 5.2421875 : FV f) (671 / 128) ∧ Rep f (671 / 128) := by
  have e : (5.2421875 : ℚ) = 671 / 128 := by norm_num
  have h := rep_mono_prec (f := f) (g := f.ldbl) (q := 671 / 128) (m := 671) (e := -7) (by norm_num [pow2_eq]) (by norm_num) (by norm_num)
  rw [e]
  refine ⟨?_, h.1⟩
  unfold L
  have h2 : rnd f.ldbl (671 / 128) = 671 / 128 := h.2
  rw [h2]
  have := is_mk (f := f) (q := 671 / 128) (zs := false) (nov (by norm_num))
  rwa [show rnd f (671 / 128) = 671 / 128 from h.1] at this

/-- lgamma.hpp:79-83 -/
theorem lg_term1 (hf : f.exact = false) {v : FV f} {y : ℚ} (hv : Is v y) (hr : Rep f y) (h1 : 0 < y + 1) (h2 : y ≤ 2 ^ 90) :
    ∃ w' p, lgamma_term_1 v = .ok w' ∧ Is w' p ∧ |p| ≤ 2 ^ 120 ∧
      |(p:ℝ) - ((y + 1 / 2) * Real.log (y + 671 / 128) - (y + 671 / 128))| ≤
        (|(y + 1 / 2 : ℝ)| * (162 / 10 + 83 / 10 * Real.log (y + 671 / 128)) + 201 / 100 * (y + 671 / 128)) * uro f := by
  obtain ⟨iL, rL⟩ := is_L_lan (f := f)
  have hu := uro_pos_real f
  have hu7 := uro7_real f
  have y1 : (-1 : ℝ) < y := by
    have : (-1 : ℚ) < y := by linarith
    exact_mod_cast this
  have y2 : (y : ℝ) ≤ 2 ^ 90 := by exact_mod_cast h2
  have hX0 : (0:ℝ) < y + 671 / 128 := by linarith
  have hh : Rep f (1 / 2 : ℚ) := by
    have := (rep_mono_prec (f := f) (g := f) (q := 1 / 2) (m := 1) (e := -1) (by norm_num [pow2_eq]) (by norm_num) (by norm_num)).1
    exact this
  have iS := hv.add (is_d_half (f := f)) (nov (by rw [abs_le]; norm_num at h2 ⊢; constructor <;> linarith))
  have iT := hv.add iL (nov (by rw [abs_le]; norm_num at h2 ⊢; constructor <;> linarith))
  have eS := rnd_add_real hr hh
  have eT := rnd_add_real hr rL
  have t4 : 4 ≤ rnd f (y + 671 / 128) := by
    have r4 : Rep f (4 : ℚ) := by
      have := (rep_mono_prec (f := f) (g := f) (q := 4) (m := 4) (e := 0) (by norm_num [pow2_eq]) (by norm_num) (by norm_num)).1
      exact this
    exact le_rnd_of_rep r4 (by linarith)
  have vT : Valid (v + L 5.2421875 : FV f) := valid_add _ _
  obtain ⟨tz, et⟩ := iT
  rw [et] at vT
  obtain ⟨l, lw, el, bl⟩ := log_half_up hf vT (by linarith)
  push_cast at eS eT
  rw [abs_of_pos hX0] at eT
  set T := rnd f (y + 671 / 128)
  set s := rnd f (y + 1 / 2)
  have hT0 : (4:ℝ) ≤ T := by exact_mod_cast t4
  have hX : (4:ℝ) ≤ y + 671 / 128 := by linarith
  set X : ℝ := y + 671 / 128 with hXd
  -- logarithms
  have hΛ : 1 ≤ Real.log X := by
    rw [Real.le_log_iff_exp_le hX0]
    have := Real.exp_one_lt_d9
    linarith
  have hTX : |Real.log T - Real.log X| ≤ 101 / 100 * uro f := by
    have hT : (0:ℝ) < T := by linarith
    have b := abs_le.1 eT
    have hux : uro f * X ≤ 1 / 10 ^ 7 * X := mul_le_mul_of_nonneg_right hu7 hX0.le
    rw [← Real.log_div hT.ne' hX0.ne', abs_le]
    constructor
    · have h := Real.one_sub_inv_le_log_of_pos (show (0:ℝ) < T / X by positivity)
      refine le_trans ?_ h
      rw [inv_div]
      have : X / T ≤ 1 + 101 / 100 * uro f := by
        rw [div_le_iff₀ hT]
        have h3 : X - uro f * X ≤ T := by linarith
        have h4 : (1 + 101 / 100 * (uro f:ℝ)) * (X - uro f * X) ≤ (1 + 101 / 100 * uro f) * T :=
          mul_le_mul_of_nonneg_left h3 (by positivity)
        have h5 : 0 ≤ uro f * X * (1 / 100 - 101 / 100 * uro f) := by
          have : 0 ≤ (1 / 100 - 101 / 100 * (uro f:ℝ)) := by norm_num at hu7; linarith
          positivity
        nlinarith
      linarith
    · refine (Real.log_le_sub_one_of_pos (by positivity)).trans ?_
      rw [sub_le_iff_le_add, div_le_iff₀ hX0]
      nlinarith
  have hlogT : |Real.log T| ≤ Real.log X + 1 / 10 ^ 6 := by
    rw [abs_of_nonneg (Real.log_nonneg (by linarith))]
    have := (abs_le.1 hTX).2
    norm_num at hu7 ⊢
    linarith
  have hl : |(l:ℝ) - Real.log X| ≤ (161 / 10 + 5 * Real.log X) * uro f := by
    have h3 := abs_add_le ((l:ℝ) - Real.log T) (Real.log T - Real.log X)
    rw [sub_add_sub_cancel] at h3
    have h4 : (15 + 5 * |Real.log T|) * uro f ≤ (15 + 5 * (Real.log X + 1 / 10 ^ 6)) * uro f :=
      mul_le_mul_of_nonneg_right (by linarith) hu.le
    norm_num at h4
    linarith
  -- sizes
  have hΛ2 : Real.log X ≤ 100 := by
    rw [Real.log_le_iff_le_exp hX0]
    have h3 : (2:ℝ) ^ 100 ≤ Real.exp 100 := by
      have e : Real.exp 100 = Real.exp 1 ^ 100 := by rw [← Real.exp_nat_mul]; norm_num
      rw [e]
      exact pow_le_pow_left₀ (by norm_num) (by have := Real.exp_one_gt_d9; linarith) 100
    refine le_trans ?_ h3
    norm_num at y2 ⊢
    linarith
  have hS : |(y + 1 / 2 : ℝ)| ≤ 2 ^ 90 + 1 := by rw [abs_le]; norm_num at y2 ⊢; constructor <;> linarith
  have hs1 : |(s:ℝ)| ≤ 2 ^ 92 := by
    have h3 := abs_sub_abs_le_abs_sub (s:ℝ) (y + 1 / 2)
    have h4 := mul_le_mul_of_nonneg_right hu7 (abs_nonneg (y + 1 / 2 : ℝ))
    norm_num at h4 hS ⊢
    linarith
  have hl1 : |(l:ℝ)| ≤ 200 := by
    have h3 := abs_sub_abs_le_abs_sub (l:ℝ) (Real.log X)
    rw [abs_of_pos (show 0 < Real.log X by linarith)] at h3
    have : (161 / 10 + 5 * Real.log X) * uro f ≤ 1000 * (1 / 10 ^ 7) := mul_le_mul (by linarith) hu7 hu.le (by norm_num)
    norm_num at this
    linarith
  have hsl : |(s:ℝ) * l| ≤ 2 ^ 92 * 200 := by
    rw [abs_mul]; exact mul_le_mul hs1 hl1 (abs_nonneg _) (by positivity)
  have nP : overflows f (rnd f (s * l)) = false := nov (by
    have : ((|s * l| : ℚ) : ℝ) ≤ ((2 ^ 127 : ℚ) : ℝ) := by push_cast; norm_num at hsl ⊢; linarith
    exact_mod_cast this)
  have iP := iS.mul (is_fin (f := f) l lw) nP
  have eP := rnd_all_real f (s * l)
  push_cast at eP
  set P := rnd f (s * l)
  have hP1 : |(P:ℝ)| ≤ 2 ^ 101 := by
    have h3 := abs_sub_abs_le_abs_sub (P:ℝ) (s * l)
    have h4 := mul_le_mul_of_nonneg_right hu7 (abs_nonneg ((s:ℝ) * l))
    norm_num only at h4 hsl hu7 ⊢
    linarith
  have hT2 : (T:ℝ) ≤ 2 ^ 92 := by
    have b := (abs_le.1 eT).2
    have hux : uro f * X ≤ 1 / 10 ^ 7 * X := mul_le_mul_of_nonneg_right hu7 hX0.le
    norm_num at hux y2 ⊢
    linarith
  have hPT : |(P:ℝ) - T| ≤ 2 ^ 102 := by
    refine (abs_sub _ _).trans ?_
    rw [abs_of_pos (show (0:ℝ) < T by linarith)]
    norm_num at hP1 hT2 ⊢
    linarith
  have nW : overflows f (rnd f (P - T)) = false := nov (by
    have : ((|P - T| : ℚ) : ℝ) ≤ ((2 ^ 127 : ℚ) : ℝ) := by push_cast; norm_num at hPT ⊢; linarith
    exact_mod_cast this)
  have iW := iP.sub (is_fin (f := f) T tz) nW
  have eW := rnd_all_real f (P - T)
  push_cast at eW
  refine ⟨_, rnd f (P - T), ?_, iW, ?_, ?_⟩
  · rw [lgamma_term_1, et, el]; rfl
  · have h3 := abs_sub_abs_le_abs_sub ((rnd f (P - T) : ℚ) : ℝ) (P - T)
    have h4 := mul_le_mul_of_nonneg_right hu7 (abs_nonneg ((P:ℝ) - T))
    have : ((|rnd f (P - T)| : ℚ) : ℝ) ≤ ((2 ^ 120 : ℚ) : ℝ) := by push_cast; norm_num at h4 hPT hu7 ⊢; linarith
    exact_mod_cast this
  · exact lg_arith1 hu hu7 hΛ hX eS hl eP eT eW

/-- `log` of a value with small relative error -/
theorem log_rel_err {a A k u : ℝ} (hA : 0 < A) (hk0 : 0 ≤ k) (hk : k * u ≤ 1 / 1000) (hu : 0 ≤ u) (h : |a - A| ≤ k * u * A) :
    0 < a ∧ |Real.log a - Real.log A| ≤ 1002 / 1000 * (k * u) := by
  have b := abs_le.1 h
  have hku : 0 ≤ k * u := by positivity
  have h1 : k * u * A ≤ 1 / 1000 * A := mul_le_mul_of_nonneg_right hk hA.le
  have ha : 0 < a := by linarith
  refine ⟨ha, ?_⟩
  rw [← Real.log_div ha.ne' hA.ne', abs_le]
  constructor
  · refine le_trans ?_ (Real.one_sub_inv_le_log_of_pos (show (0:ℝ) < a / A by positivity))
    rw [inv_div]
    have : A / a ≤ 1 + 1002 / 1000 * (k * u) := by
      rw [div_le_iff₀ ha]
      have h4 : (1 + 1002 / 1000 * (k * u)) * (A - k * u * A) ≤ (1 + 1002 / 1000 * (k * u)) * a :=
        mul_le_mul_of_nonneg_left (by linarith) (by positivity)
      have h5 : 0 ≤ (k * u) * A * (2 / 1000 - 1002 / 1000 * (k * u)) := by
        have : 0 ≤ 2 / 1000 - 1002 / 1000 * (k * u) := by linarith
        positivity
      nlinarith
    linarith
  · refine (Real.log_le_sub_one_of_pos (by positivity)).trans ?_
    rw [sub_le_iff_le_add, div_le_iff₀ hA]
    nlinarith

theorem ldbl_wro (f : Fmt) : wro f.ldbl ≤ 1001 / 1000 * uro f := by
  have := uro_ldbl_le f
  unfold wro
  linarith

/-- the Lanczos sum converted back to the type -/
theorem coef_cast {v : FV f} {y : ℚ} (hv : Is v y) (hr : Rep f y) (h1 : 1 / 2 ^ 70 ≤ y + 1) (h2 : y ≤ 2 ^ 90) :
    ∃ a z, cast f (lgamma_coef_term (cast f.ldbl v)) = (fin a z : FV f) ∧ 1 / 2 ≤ a ∧
      |(a:ℝ) - Lan.lanA (y + 1)| ≤ 421 / 10 * uro f * Lan.lanA (y + 1) := by
  have hy : 0 < y + 1 := lt_of_lt_of_le (by positivity) h1
  have hy' : (0:ℝ) < y + 1 := by exact_mod_cast hy
  have rl := rep_ldbl hr
  have hyabs : |y| ≤ 2 ^ 127 := by rw [abs_le]; norm_num at h2 ⊢; constructor <;> linarith
  have iv : Is (cast f.ldbl v : FV f.ldbl) y := by
    have := hv.cast (g := f.ldbl) (nov hyabs)
    rwa [show rnd f.ldbl y = y from rl] at this
  obtain ⟨a, ia, ea⟩ := coef_ap (uro_ldbl_ldbl f) iv rl h1 h2
  have hAeq := lanAq_eq y
  have hA1 := Lan.lanC_le hy'
  have hA2 := Lan.lanA_le hy'
  rw [← hAeq] at hA1 hA2
  have hu := uro_pos f
  have hu7 := uro_le7 f
  have A1 : 99 / 100 ≤ lanAq y := by
    have : (99 / 100 : ℝ) ≤ (lanAq y : ℚ) := le_trans (by rw [Lan.lanC]; norm_num) hA1
    have h : ((99 / 100 : ℚ) : ℝ) ≤ (lanAq y : ℚ) := by push_cast; exact this
    exact_mod_cast h
  have A2 : lanAq y ≤ 2 ^ 80 := by
    have h3 : (58:ℝ) / (y + 1) ≤ 58 * 2 ^ 70 := by
      rw [div_le_iff₀ hy']
      have : (1 / 2 ^ 70 : ℝ) ≤ y + 1 := by
        have := (Rat.cast_le (K := ℝ)).2 h1; push_cast at this; exact this
      nlinarith
    have h : ((lanAq y : ℚ) : ℝ) ≤ ((2 ^ 80 : ℚ) : ℝ) := by
      refine hA2.trans ?_; push_cast; norm_num at h3 ⊢; linarith
    exact_mod_cast h
  rw [← hAeq]
  clear hAeq hA1 hA2
  generalize lanAq y = A at *
  have e1 : |a - A| ≤ 4105 / 100 * uro f * A := by
    refine ea.trans ?_
    have := mul_le_mul_of_nonneg_left (ldbl_wro f) (show 0 ≤ 41 * A by linarith)
    have h5 : 0 ≤ uro f * A := by have : 0 ≤ A := by linarith
                                  positivity
    linarith
  have huA : uro f * A ≤ 1 / 10 ^ 7 * A := mul_le_mul_of_nonneg_right hu7 (by linarith)
  have b := abs_le.1 e1
  have a1 : 98 / 100 ≤ a := by norm_num at huA; linarith
  have a2 : a ≤ 1001 / 1000 * A := by norm_num at huA; linarith
  have ic := ia.cast (g := f) (nov (by
    rw [abs_of_pos (show 0 < a by linarith)]
    norm_num at A2 ⊢
    linarith))
  obtain ⟨z, ez⟩ := ic
  have er := rnd_err_rel (f := f) (q := a) (by
    rw [abs_of_pos (show 0 < a by linarith)]
    exact (minNormal_le' f).trans (le_trans (by norm_num) a1))
  rw [abs_of_pos (show 0 < a by linarith)] at er
  have et : |rnd f a - A| ≤ 421 / 10 * uro f * A := by
    have h3 := abs_add_le (rnd f a - a) (a - A)
    rw [sub_add_sub_cancel] at h3
    have h4 := mul_le_mul_of_nonneg_left a2 hu.le
    have h5 : 0 ≤ uro f * A := by have : 0 ≤ A := by linarith
                                  positivity
    linarith
  refine ⟨rnd f a, z, ez, ?_, ?_⟩
  · have b2 := (abs_le.1 et).1
    norm_num at huA
    linarith
  · have := (Rat.cast_le (K := ℝ)).2 et
    push_cast at this
    exact this

theorem lg_arith2 {u κ K l lA α v : ℝ} (hu : 0 < u) (hu7 : u ≤ 1 / 10 ^ 7) (hα : |lA| = α) (hK : |K| ≤ 92 / 100)
    (hκ : |κ - K| ≤ 187 / 100 * u) (hl : |l - lA| ≤ (572 / 10 + 501 / 100 * α) * u) (hv : |v - (κ + l)| ≤ u * |κ + l| + u / 1000) :
    |v - (K + lA)| ≤ (602 / 10 + 61 / 10 * α) * u := by
  have hα0 : 0 ≤ α := hα ▸ abs_nonneg _
  have h1 : |(κ + l) - (K + lA)| ≤ (5907 / 100 + 501 / 100 * α) * u := by
    have e : (κ + l) - (K + lA) = (κ - K) + (l - lA) := by ring
    rw [e]
    refine (abs_add_le _ _).trans ((add_le_add hκ hl).trans (le_of_eq (by ring)))
  have h2 : |κ + l| ≤ 93 / 100 + 101 / 100 * α := by
    have h3 := abs_sub_abs_le_abs_sub (κ + l) (K + lA)
    have h4 := abs_add_le K lA
    have h5 : (5907 / 100 + 501 / 100 * α) * u ≤ (5907 / 100 + 501 / 100 * α) * (1 / 10 ^ 7) :=
      mul_le_mul_of_nonneg_left hu7 (by positivity)
    norm_num only at h5
    linarith
  have h3 := abs_add_le (v - (κ + l)) ((κ + l) - (K + lA))
  rw [sub_add_sub_cancel] at h3
  have h4 := mul_le_mul_of_nonneg_left h2 hu.le
  have h5 : 0 ≤ α * u := by positivity
  linarith

theorem log_sqrt_2pi_abs : |Real.log √(2 * Real.pi)| ≤ 92 / 100 := by
  have h := LOG_SQRT_2PI_err
  have h2 : (LOG_SQRT_2PI : ℝ) = ((LOG_SQRT_2PI : ℚ) : ℝ) := rfl
  have h3 : LOG_SQRT_2PI ≤ 91894 / 100000 := by decide +kernel
  have h4 : (91893 / 100000 : ℚ) ≤ LOG_SQRT_2PI := by decide +kernel
  have h3' := (Rat.cast_le (K := ℝ)).2 h3
  have h4' := (Rat.cast_le (K := ℝ)).2 h4
  push_cast at h h3' h4'
  have b := abs_le.1 h
  rw [abs_le]
  constructor <;> norm_num at b ⊢ <;> linarith [b.1, b.2]

theorem is_log_sqrt_2pi (f : Fmt) : ∃ κ, Is (L LOG_SQRT_2PI : FV f) κ ∧ |(κ:ℝ) - Real.log √(2 * Real.pi)| ≤ 187 / 100 * uro f := by
  obtain ⟨κ, i1, -, e⟩ := is_L_near (f := f) (q := LOG_SQRT_2PI) (by decide +kernel) (by decide +kernel)
  refine ⟨κ, i1, ?_⟩
  have h := LOG_SQRT_2PI_err
  have h3 : LOG_SQRT_2PI ≤ 92 / 100 := by decide +kernel
  have hu := uro_pos f
  have hu64 : (1 / 2 ^ 64 : ℚ) ≤ uro f := by rw [← ldbl_uro (f := f)]; exact uro_ldbl_le f
  have e' : |κ - LOG_SQRT_2PI| ≤ 185 / 100 * uro f := by
    refine e.trans ?_
    have := mul_le_mul_of_nonneg_left h3 (show 0 ≤ 201 / 100 * uro f by positivity)
    linarith
  have e2 := (Rat.cast_le (K := ℝ)).2 e'
  have e3 := (Rat.cast_le (K := ℝ)).2 hu64
  push_cast at e2 e3 h
  have h4 := abs_add_le ((κ:ℝ) - LOG_SQRT_2PI) (LOG_SQRT_2PI - Real.log √(2 * Real.pi))
  rw [sub_add_sub_cancel] at h4
  norm_num only at h e3 ⊢
  linarith

/-- lgamma.hpp:70-74 -/
theorem lg_term2 (hf : f.exact = false) {v : FV f} {y : ℚ} (hv : Is v y) (hr : Rep f y) (h1 : 1 / 2 ^ 70 ≤ y + 1) (h2 : y ≤ 2 ^ 90) :
    ∃ w' p, lgamma_term_2 v = .ok w' ∧ Is w' p ∧ |p| ≤ 2 ^ 120 ∧
      |(p:ℝ) - (Real.log √(2 * Real.pi) + Real.log (Lan.lanA (y + 1)))| ≤
        (602 / 10 + 61 / 10 * |Real.log (Lan.lanA (y + 1))|) * uro f := by
  have hy : 0 < y + 1 := lt_of_lt_of_le (by positivity) h1
  have hy' : (0:ℝ) < y + 1 := by exact_mod_cast hy
  have hu := uro_pos_real f
  have hu7 := uro7_real f
  obtain ⟨a, z, ea, a1, era⟩ := coef_cast hv hr h1 h2
  have hA := Lan.lanA_pos hy'
  obtain ⟨a0, hla⟩ := log_rel_err hA (by norm_num : (0:ℝ) ≤ 421 / 10) (by norm_num at hu7 ⊢; linarith) hu.le era
  have va : Valid (fin a z : FV f) := ea ▸ valid_cast _
  obtain ⟨l, lw, el, bl⟩ := log_half_up hf va a1
  obtain ⟨κ, iκ, eκ⟩ := is_log_sqrt_2pi f
  have hK := log_sqrt_2pi_abs
  have hαB : |Real.log (Lan.lanA (y + 1))| ≤ 1000 := by
    refine (Lan.abs_log_lanA hy').trans ?_
    have h3 : (58:ℝ) / (y + 1) ≤ 58 * 2 ^ 70 := by
      rw [div_le_iff₀ hy']
      have : (1 / 2 ^ 70 : ℝ) ≤ y + 1 := by
        have := (Rat.cast_le (K := ℝ)).2 h1; push_cast at this; exact this
      nlinarith
    have h4 : Real.log (1 + 58 / (y + 1)) ≤ 100 := by
      rw [Real.log_le_iff_le_exp (by positivity)]
      have h3' : (2:ℝ) ^ 100 ≤ Real.exp 100 := by
        have e : Real.exp 100 = Real.exp 1 ^ 100 := by rw [← Real.exp_nat_mul]; norm_num
        rw [e]
        exact pow_le_pow_left₀ (by norm_num) (by have := Real.exp_one_gt_d9; linarith) 100
      refine le_trans ?_ h3'
      norm_num at h3 ⊢
      linarith
    norm_num
    linarith
  generalize Real.log (Lan.lanA (y + 1)) = lA at *
  generalize Real.log √(2 * Real.pi) = K at *
  have hl : |(l:ℝ) - lA| ≤ (572 / 10 + 501 / 100 * |lA|) * uro f := by
    have h3 := abs_add_le ((l:ℝ) - Real.log a) (Real.log a - lA)
    rw [sub_add_sub_cancel] at h3
    have h4 : |Real.log a| ≤ |lA| + 1 / 1000 := by
      have := abs_sub_abs_le_abs_sub (Real.log a) lA
      norm_num only at hu7 ⊢
      linarith
    have h5 : (15 + 5 * |Real.log a|) * uro f ≤ (15 + 5 * (|lA| + 1 / 1000)) * uro f :=
      mul_le_mul_of_nonneg_right (by linarith) hu.le
    have h6 : 0 ≤ |lA| * uro f := by positivity
    linarith
  have hκl : |(κ:ℝ) + l| ≤ 2000 := by
    have h3 := abs_add_le (κ:ℝ) l
    have h4 := abs_sub_abs_le_abs_sub (κ:ℝ) K
    have h5 := abs_sub_abs_le_abs_sub (l:ℝ) lA
    have h6 : (572 / 10 + 501 / 100 * |lA|) * uro f ≤ 6000 * (1 / 10 ^ 7) := mul_le_mul (by linarith) hu7 hu.le (by norm_num)
    norm_num only at h6 hu7
    linarith
  have nV : overflows f (rnd f (κ + l)) = false := nov (by
    have : ((|κ + l| : ℚ) : ℝ) ≤ ((2 ^ 127 : ℚ) : ℝ) := by push_cast; norm_num only; linarith
    exact_mod_cast this)
  have iV := iκ.add (is_fin (f := f) l lw) nV
  have eV := rnd_all_real f (κ + l)
  push_cast at eV
  refine ⟨_, rnd f (κ + l), ?_, iV, ?_, lg_arith2 hu hu7 rfl hK eκ hl eV⟩
  · rw [lgamma_term_2, ea, el]; rfl
  · have h3 := abs_sub_abs_le_abs_sub ((rnd f (κ + l) : ℚ) : ℝ) (κ + l)
    have h4 := mul_le_mul_of_nonneg_right hu7 (abs_nonneg ((κ:ℝ) + l))
    have : ((|rnd f (κ + l)| : ℚ) : ℝ) ≤ ((2 ^ 120 : ℚ) : ℝ) := by push_cast; norm_num only at h4 hu7 ⊢; linarith
    exact_mod_cast this

/-- lgamma.hpp:88-92: rounding error against the real Lanczos formula -/
theorem lg_begin (hf : f.exact = false) {v : FV f} {y : ℚ} (hv : Is v y) (hr : Rep f y) (h1 : 1 / 2 ^ 70 ≤ y + 1) (h2 : y ≤ 2 ^ 90) :
    ∃ r w, lgamma_begin v = .ok (fin r w) ∧
      |(r:ℝ) - Lan.lanL (y + 1)| ≤
        (|(y + 1 / 2 : ℝ)| * (163 / 10 + 94 / 10 * Real.log (y + 671 / 128)) + 305 / 100 * (y + 671 / 128) + 612 / 10
          + 72 / 10 * |Real.log (Lan.lanA (y + 1))|) * uro f := by
  have hy : 0 < y + 1 := lt_of_lt_of_le (by positivity) h1
  have hy' : (0:ℝ) < y + 1 := by exact_mod_cast hy
  have hu := uro_pos_real f
  have hu7 := uro7_real f
  obtain ⟨w1, p, e1, i1, b1, r1⟩ := lg_term1 hf hv hr hy h2
  obtain ⟨w2, q, e2, i2, b2, r2⟩ := lg_term2 hf hv hr h1 h2
  have nR : overflows f (rnd f (p + q)) = false := nov (by
    refine (abs_add_le _ _).trans ?_
    norm_num at b1 b2 ⊢
    linarith)
  obtain ⟨w, ew⟩ := i1.add i2 nR
  have eR := rnd_all_real f (p + q)
  push_cast at eR
  refine ⟨rnd f (p + q), w, by rw [lgamma_begin, e1, e2]; exact congrArg Except.ok ew, ?_⟩
  have hK := log_sqrt_2pi_abs
  have hΛ : 1 ≤ Real.log (y + 671 / 128) := by
    rw [Real.le_log_iff_exp_le (by linarith)]
    have := Real.exp_one_lt_d9
    linarith
  have eL : Lan.lanL (y + 1) = ((y + 1 / 2) * Real.log (y + 671 / 128) - (y + 671 / 128)) +
      (Real.log √(2 * Real.pi) + Real.log (Lan.lanA (y + 1))) := by
    rw [Lan.lanL]
    have a1 : (y:ℝ) + 1 - 1 / 2 = y + 1 / 2 := by ring
    have a2 : (y:ℝ) + 1 + 543 / 128 = y + 671 / 128 := by ring
    rw [a1, a2]; ring
  rw [eL]
  have hX : (0:ℝ) < y + 671 / 128 := by linarith
  generalize Real.log (y + 671 / 128) = Λ at *
  generalize (y:ℝ) + 671 / 128 = X at *
  generalize (y:ℝ) + 1 / 2 = S at *
  generalize Real.log (Lan.lanA (y + 1)) = lA at *
  generalize Real.log √(2 * Real.pi) = K at *
  have hS := abs_nonneg S
  have hl := abs_nonneg lA
  have hSΛ : 0 ≤ |S| * Λ := by positivity
  have h3 : |((p:ℝ) + q) - ((S * Λ - X) + (K + lA))| ≤
      (|S| * (162 / 10 + 83 / 10 * Λ) + 201 / 100 * X + 602 / 10 + 61 / 10 * |lA|) * uro f := by
    have e : ((p:ℝ) + q) - ((S * Λ - X) + (K + lA)) = (p - (S * Λ - X)) + (q - (K + lA)) := by ring
    rw [e]
    refine (abs_add_le _ _).trans ((add_le_add r1 r2).trans (le_of_eq (by ring)))
  have hE : (|S| * (162 / 10 + 83 / 10 * Λ) + 201 / 100 * X + 602 / 10 + 61 / 10 * |lA|) * uro f ≤
      1 / 10 ^ 4 * (|S| * Λ + X + 1 + |lA|) := by
    have : (|S| * (162 / 10 + 83 / 10 * Λ) + 201 / 100 * X + 602 / 10 + 61 / 10 * |lA|) * uro f ≤
        (|S| * (25 * Λ) + 25 * X + 100 + 25 * |lA|) * (1 / 10 ^ 7) := by
      refine mul_le_mul ?_ hu7 hu.le (by positivity)
      have := mul_le_mul_of_nonneg_left (show 162 / 10 + 83 / 10 * Λ ≤ 25 * Λ by linarith) hS
      linarith
    norm_num only at this ⊢
    linarith
  have h4 : |(S * Λ - X) + (K + lA)| ≤ |S| * Λ + X + 92 / 100 + |lA| := by
    have k1 := abs_add_le (S * Λ - X) (K + lA)
    have k2 := abs_add_le K lA
    have k3 := abs_sub (S * Λ) X
    rw [abs_mul, abs_of_pos (show 0 < Λ by linarith), abs_of_pos hX] at k3
    linarith
  have h5 := abs_sub_abs_le_abs_sub ((p:ℝ) + q) ((S * Λ - X) + (K + lA))
  have h6 : |(p:ℝ) + q| ≤ (1 + 1 / 10 ^ 4) * (|S| * Λ + X + |lA|) + 93 / 100 := by
    norm_num only at hE ⊢
    linarith
  have h7 := mul_le_mul_of_nonneg_left h6 hu.le
  have h8 := abs_add_le (((rnd f (p + q) : ℚ) : ℝ) - (p + q)) (((p:ℝ) + q) - ((S * Λ - X) + (K + lA)))
  rw [sub_add_sub_cancel] at h8
  have h9 : 0 ≤ |S| * Λ * uro f := by positivity
  have h10 : 0 ≤ X * uro f := by positivity
  have h11 : 0 ≤ |lA| * uro f := by positivity
  have h12 : 0 ≤ |S| * uro f := by positivity
  norm_num only at h7
  linarith

end Gcem.Props
