import Verif.Analysis.AtanCf
import Verif.Analysis.AtanSeries
import Verif.Analysis.Consts
import Verif.Props.Atan
import Verif.Props.Log2Acc

/-!
# C45: accuracy of `atan` in the rounded types
-/

namespace Gcem.Props
open Gcem FV
open Real (arctan)
variable {f : Fmt}

/-! ## positive arguments up to 5/2 -/

theorem atan_thresholds : Is (d 0.5 : FV f) (1 / 2) ∧ Is (i 1 : FV f) 1 ∧ Is (d 1.5 : FV f) (3 / 2) ∧
    Is (i 2 : FV f) 2 ∧ Is (d 2.5 : FV f) (5 / 2) := by
  refine ⟨is_d_half, ?_, ?_, ?_, ?_⟩
  · have := is_i (f := f) (n := 1) (by norm_num); push_cast at this; exact this
  · have := is_d_scaled (f := f) (q := 1.5) 3 (-1) (by norm_num [pow2_eq]) (by norm_num) (by norm_num) (by norm_num [abs_of_pos])
    rw [show (3 / 2 : ℚ) = 1.5 by norm_num]; exact this
  · have := is_i (f := f) (n := 2) (by norm_num); push_cast at this; exact this
  · have := is_d_scaled (f := f) (q := 2.5) 5 (-1) (by norm_num [pow2_eq]) (by norm_num) (by norm_num) (by norm_num [abs_of_pos])
    rw [show (5 / 2 : ℚ) = 2.5 by norm_num]; exact this

theorem atan_begin_le {q : ℚ} {z : Bool} (h : q ≤ 5 / 2) :
    atan_begin (fin q z : FV f) = atan_cf_main (fin q z) := by
  unfold atan_begin
  rw [if_neg]
  intro h'
  have := (atan_thresholds.2.2.2.2.lt_iff (is_fin q z)).1 h'
  linarith

theorem atan_begin_gt {q : ℚ} {z : Bool} (h : 5 / 2 < q) :
    atan_begin (fin q z : FV f) = atan_series_main (fin q z) := by
  unfold atan_begin
  rw [if_pos]
  exact (atan_thresholds.2.2.2.2.lt_iff (is_fin q z)).2 h

/-- truncation error of the depth chosen by `atan_cf_main` -/
theorem atan_depth_err {q : ℚ} {z : Bool} (h0 : 0 < q) (h : q ≤ 5 / 2) :
    ∃ m, atan_cf_depth (fin q z : FV f) = m + 1 ∧ 1 ≤ m ∧ m ≤ 60 ∧
      |(q:ℝ) / ((cfT sqC (-(q * q)) m 1 : ℚ) : ℝ) - arctan q| ≤ (162 / 10 ^ 19 : ℝ) * arctan q := by
  obtain ⟨t1, t2, t3, t4, -⟩ := atan_thresholds (f := f)
  have hx := is_fin (f := f) q z
  have q0 : (0:ℝ) < q := by exact_mod_cast h0
  have ap : 0 ≤ arctan q := Real.arctan_nonneg.2 q0.le
  have key : ∀ (m : ℕ) (X B : ℚ), 0 ≤ B → q ≤ B → B * B ≤ X → atanE X m 1 ≤ 162 / 10 ^ 19 →
      |(q:ℝ) / ((cfT sqC (-(q * q)) m 1 : ℚ) : ℝ) - arctan q| ≤ (162 / 10 ^ 19 : ℝ) * arctan q := by
    intro m X B hB0 hB hX hE
    have hX' : (q:ℝ) ^ 2 ≤ (X : ℝ) := by
      have : q ^ 2 ≤ X := by nlinarith
      exact_mod_cast this
    have t := atan_cf_trunc q0 hX' m
    have hE' : atanE (X:ℝ) m 1 ≤ 162 / 10 ^ 19 := by
      rw [← atanE_cast]
      have := (Rat.cast_le (K := ℝ)).2 hE
      push_cast at this; exact this
    have e : ((cfT sqC (-(q * q)) m 1 : ℚ) : ℝ) = cfT sqC (-(q:ℝ) ^ 2) m 1 := by
      rw [cfT_cast]; simp only [sqC_cast]; push_cast; congr 1; ring
    rw [e]
    exact t.trans (mul_le_mul_of_nonneg_right hE' ap)
  unfold atan_cf_depth
  by_cases c1 : q < 1 / 2
  · rw [if_pos ((hx.lt_iff t1).2 c1)]
    exact ⟨14, rfl, by norm_num, by norm_num, key 14 (1 / 4) (1 / 2) (by norm_num) c1.le (by norm_num) (by decide +kernel)⟩
  rw [if_neg fun h => c1 ((hx.lt_iff t1).1 h)]
  by_cases c2 : q < 1
  · rw [if_pos ((hx.lt_iff t2).2 c2)]
    exact ⟨24, rfl, by norm_num, by norm_num, key 24 1 1 (by norm_num) c2.le (by norm_num) (by decide +kernel)⟩
  rw [if_neg fun h => c2 ((hx.lt_iff t2).1 h)]
  by_cases c3 : q < 3 / 2
  · rw [if_pos ((hx.lt_iff t3).2 c3)]
    exact ⟨34, rfl, by norm_num, by norm_num, key 34 (9 / 4) (3 / 2) (by norm_num) c3.le (by norm_num) (by decide +kernel)⟩
  rw [if_neg fun h => c3 ((hx.lt_iff t3).1 h)]
  by_cases c4 : q < 2
  · rw [if_pos ((hx.lt_iff t4).2 c4)]
    exact ⟨44, rfl, by norm_num, by norm_num, key 44 4 2 (by norm_num) c4.le (by norm_num) (by decide +kernel)⟩
  rw [if_neg fun h => c4 ((hx.lt_iff t4).1 h)]
  exact ⟨51, rfl, by norm_num, by norm_num, key 51 (25 / 4) (5 / 2) (by norm_num) h (by norm_num) (by decide +kernel)⟩

theorem atan_tiny_id (hf : f.exact = false) {q : ℚ} {z : Bool} (hx : Rep f q) (h0 : 0 < q) (h : q ≤ 1 / 2 ^ 40) :
    Is (atan_cf_main (fin q z : FV f)) q := by
  obtain ⟨m, e, m1, m2, -⟩ := atan_depth_err (f := f) (z := z) h0 (h.trans (by norm_num))
  have hqq : q * q ≤ 1 / 2 ^ 80 := by
    have := mul_le_mul h h h0.le (by norm_num : (0:ℚ) ≤ 1 / 2 ^ 40)
    exact this.trans (by norm_num)
  have hsq : Is (fin q z * fin q z : FV f) (rnd f (q * q)) :=
    (is_fin q z).mul (is_fin q z) (nov (by rw [abs_of_nonneg (by positivity)]; exact hqq.trans (by norm_num)))
  have := atan_cf_tiny hf hsq (rnd_nonneg (by positivity)) (by
    have := rnd_le_of_rep (f := f) (rep_inv_pow2 (k := 80) (by norm_num)) hqq
    exact this.trans (by norm_num)) m m2 m1
  unfold atan_cf_main
  rw [e]
  have r := (is_fin (f := f) q z).div this one_ne_zero (by
    rw [div_one]; exact nov (by rw [abs_of_pos h0]; exact h.trans (by norm_num)))
  rw [div_one, hx] at r
  exact r

theorem atan_direct {q : ℚ} {z : Bool} (h0 : 1 / 2 ^ 40 ≤ q) (h : q ≤ 5 / 2) :
    ∃ a, Is (atan_cf_main (fin q z : FV f)) a ∧
      |(a:ℝ) - arctan q| ≤ ((21 / 10 + 136 / 100 * (q:ℝ) ^ 2) * uro f + 163 / 10 ^ 19) * arctan q := by
  have hq : 0 < q := lt_of_lt_of_le (by norm_num) h0
  obtain ⟨m, e, m1, m2, htr⟩ := atan_depth_err (f := f) (z := z) hq h
  have hqq : q * q ≤ 25 / 4 := by nlinarith
  have hqq' : 1 / 2 ^ 80 ≤ q * q := by
    have := mul_le_mul h0 h0 (by norm_num) hq.le
    exact le_trans (by norm_num) this
  have hx : Rl (fin q z : FV f) q 0 := (is_fin q z).rl hq
  have hxx : Rl (fin q z * fin q z : FV f) (q * q) 1 :=
    hx.mul hx (le_trans (by norm_num) hqq') (hqq.trans (by norm_num)) (by norm_num) (by norm_num)
  have hc := atan_cf_rl hxx hqq' (by linarith) m m2
  have T1 := atanT_ge (K := ℚ) (s := q * q) (by positivity) m 1 le_rfl
  have T2 := atanT_le (K := ℚ) (s := q * q) (by positivity) m 1 le_rfl
  push_cast at T1 T2
  norm_num at T1 T2
  have T0 : 0 < cfT sqC (-(q * q)) m 1 := by linarith
  have hd := hx.div hc (c'' := 101 / 100 * (1 + 4 / 3 * (q * q)) + 10001 / 10000) (by
      rw [le_div_iff₀ T0]
      have : (1 / 2 ^ 120 : ℚ) * cfT sqC (-(q * q)) m 1 ≤ 1 / 2 ^ 120 * 10 :=
        mul_le_mul_of_nonneg_left (by linarith) (by norm_num)
      refine this.trans (le_trans ?_ h0); norm_num) (by
      rw [div_le_iff₀ T0]
      have : (2:ℚ) ^ 120 * 1 ≤ 2 ^ 120 * cfT sqC (-(q * q)) m 1 := mul_le_mul_of_nonneg_left T1 (by norm_num)
      refine le_trans (h.trans (by norm_num)) this) (by nlinarith) (by linarith)
  obtain ⟨p, -, a, ha, hb⟩ := hd
  unfold atan_cf_main
  rw [e]
  refine ⟨a, ha, ?_⟩
  have hb' := (Rat.cast_le (K := ℝ)).2 hb
  rw [Rat.cast_abs, Rat.cast_sub, Rat.cast_div] at hb'
  have hw : wro f = 1001 / 1000 * uro f := rfl
  rw [hw] at hb'
  push_cast at hb'
  have q0 : (0:ℝ) < q := by exact_mod_cast hq
  have ap : 0 < arctan q := Real.arctan_pos.2 q0
  have u0 := uro_pos_real f
  have u1 := uro_le f
  generalize ((uro f : ℚ) : ℝ) = u at *
  generalize hT : ((q:ℝ) / ((cfT sqC (-(q * q)) m 1 : ℚ) : ℝ)) = Y at *
  generalize arctan (q:ℝ) = A at *
  have hs : (q:ℝ) * q ≤ 25 / 4 := by
    have := (Rat.cast_le (K := ℝ)).2 hqq
    push_cast at this; exact this
  have hs0 : (0:ℝ) ≤ q * q := by positivity
  rw [show (q:ℝ) ^ 2 = q * q by ring]
  generalize (q:ℝ) * q = s at *
  have ht := abs_le.1 htr
  have e1 : (a:ℝ) - A = (a - Y) + (Y - A) := by ring
  rw [e1]
  refine (abs_add_le _ _).trans ((add_le_add hb' htr).trans ?_)
  have hY : Y ≤ (1 + 1 / 10 ^ 10) * A := by linarith
  have h1 : (101 / 100 * (1 + 4 / 3 * s) + 10001 / 10000) * (1001 / 1000 * u) * Y ≤
      (101 / 100 * (1 + 4 / 3 * s) + 10001 / 10000) * (1001 / 1000 * u) * ((1 + 1 / 10 ^ 10) * A) :=
    mul_le_mul_of_nonneg_left hY (by positivity)
  refine (add_le_add_left h1 _).trans ?_
  have h2 : (101 / 100 * (1 + 4 / 3 * s) + 10001 / 10000) * (1001 / 1000) * (1 + 1 / 10 ^ 10) ≤ 21 / 10 + 136 / 100 * s := by
    linarith
  have h3 := mul_le_mul_of_nonneg_right h2 (mul_nonneg u0.le ap.le)
  have h4 : (162 / 10 ^ 19 : ℝ) * A ≤ 163 / 10 ^ 19 * A := by
    apply mul_le_mul_of_nonneg_right _ ap.le; norm_num
  nlinarith

/-! ## arguments above 5/2 -/

theorem ldbl_uro : uro f.ldbl = 1 / 2 ^ 64 := by
  unfold uro
  rcases f with ⟨⟨⟩, ⟨⟩⟩ <;> decide +kernel

theorem half_pi_L : Is (L HALF_PI : FV f.ldbl) (rnd f.ldbl HALF_PI) := by
  unfold L
  have e : rnd f.ldbl.ldbl HALF_PI = rnd f.ldbl HALF_PI := by
    congr 1
  rw [e]
  have h1 : rnd f.ldbl HALF_PI ≤ 2 := rnd_le_of_rep (by simpa using rep_pow2_nat (f := f.ldbl) (n := 1)) (by decide +kernel)
  have h0 : 0 ≤ rnd f.ldbl HALF_PI := rnd_nonneg (by decide +kernel)
  have := is_mk (f := f.ldbl) (q := rnd f.ldbl HALF_PI) (zs := false) (nov (by rw [abs_of_nonneg h0]; linarith))
  rwa [show rnd f.ldbl (rnd f.ldbl HALF_PI) = rnd f.ldbl HALF_PI from rep_rnd _ _] at this

/-- the last three operations -/
theorem atan_final (hf : f.exact = false) {q a S : ℚ} {z : Bool} {v : FV f} (hq : 5 / 2 ≤ q) (hv : Is v a)
    (hS0 : 0 ≤ S) (hS : S ≤ 103 / 300 * (1 / q) ^ 3) (ha : |a - S| ≤ 265 / 1000 * wro f)
    (hr : (1 / 2 ^ 22 ≤ 1 / q ∧ a ≤ 1 / 10 * (1 / q)) ∨ a ≤ 1 / 2 ^ 67) :
    ∃ r, Is (FV.cast f (FV.cast f.ldbl v + half_pi_minus_inv (fin q z : FV f))) r ∧
      |r - (HALF_PI - 1 / q + S)| ≤ 224 / 100 * uro f + 3 / 10 ^ 19 ∧ r ≤ rnd f (rnd f.ldbl HALF_PI) := by
  have hL : wro f.ldbl ≤ 55 / 10 ^ 21 := by
    have : wro f.ldbl = 1001 / 1000 * uro f.ldbl := rfl
    rw [this, ldbl_uro]; norm_num
  have hL0 := wro_pos f.ldbl
  have hw := wro_pos f
  have hw1 := wro_le f
  have hw2 : wro f = 1001 / 1000 * uro f := rfl
  have hq0 : 0 < q := by linarith
  have y0 : 0 < 1 / q := by positivity
  have y1 : 1 / q ≤ 2 / 5 := by rw [div_le_iff₀ hq0]; linarith
  have hpb : 15707 / 10000 ≤ HALF_PI ∧ HALF_PI ≤ 15708 / 10000 := by decide +kernel
  have hSy : S ≤ 55 / 1000 * (1 / q) := by
    have : (1 / q) ^ 2 ≤ 4 / 25 := by nlinarith
    have : (1 / q) ^ 3 ≤ 4 / 25 * (1 / q) := by rw [pow_succ]; exact mul_le_mul_of_nonneg_right this y0.le
    linarith
  generalize hy : 1 / q = y at *
  generalize hhp : HALF_PI = H at *
  have ha' := abs_le.1 ha
  -- first quotient
  have i1 : Is (i 1 / fin q z : FV f) (rnd f y) := by
    have := (is_i (f := f) (n := 1) (by norm_num)).div (is_fin q z) hq0.ne' (by
      rw [Int.cast_one, hy]; exact nov (by rw [abs_of_pos y0]; linarith))
    rwa [Int.cast_one, hy] at this
  have e1 := abs_le.1 (rnd_abs (f := f) (q := y) (B := 2 / 5) (by norm_num) (by rw [abs_of_pos y0]; exact y1))
  have i2 : Is (FV.cast f.ldbl (i 1 / fin q z : FV f)) (rnd f y) := by
    have := i1.cast (g := f.ldbl) (nov (by
      rw [abs_le]; constructor <;> linarith))
    rwa [rep_ldbl (rep_rnd f y)] at this
  have i3 : Is (L HALF_PI : FV f.ldbl) (rnd f.ldbl H) := by rw [← hhp]; exact half_pi_L
  have e3 := abs_le.1 (rnd_abs (f := f.ldbl) (q := H) (B := 15708 / 10000) (by norm_num) (by rw [abs_of_pos (by linarith)]; exact hpb.2))
  have b4 : |rnd f.ldbl H - rnd f y| ≤ 15709 / 10000 := by rw [abs_le]; constructor <;> linarith
  have i4 : Is (half_pi_minus_inv (fin q z : FV f)) (rnd f.ldbl (rnd f.ldbl H - rnd f y)) :=
    i3.sub i2 (nov (b4.trans (by norm_num)))
  have e4 := abs_le.1 (rnd_abs (f := f.ldbl) (by norm_num) b4)
  have b5 : |a| ≤ 221 / 10000 := by rw [abs_le]; constructor <;> linarith
  have i5 : Is (FV.cast f.ldbl v) (rnd f.ldbl a) := hv.cast (nov (b5.trans (by norm_num)))
  have e5 := abs_le.1 (rnd_abs (f := f.ldbl) (by norm_num) b5)
  have b6 : |rnd f.ldbl a + rnd f.ldbl (rnd f.ldbl H - rnd f y)| ≤ 15709 / 10000 := by
    rw [abs_le]; constructor <;> linarith
  have i6 := i5.add i4 (nov (b6.trans (by norm_num)))
  have e6 := abs_le.1 (rnd_abs (f := f.ldbl) (by norm_num) b6)
  have b7 : |rnd f.ldbl (rnd f.ldbl a + rnd f.ldbl (rnd f.ldbl H - rnd f y))| ≤ 157095 / 100000 := by
    have := abs_le.1 b6
    rw [abs_le]; constructor <;> linarith
  have i7 := i6.cast (g := f) (nov (b7.trans (by norm_num)))
  have e7 := abs_le.1 (rnd_abs (f := f) (by norm_num) b7)
  refine ⟨_, i7, ?_, rnd_mono ?_⟩
  · rw [abs_le]
    constructor <;> linarith
  have r2 : rnd f.ldbl (rnd f.ldbl H - rnd f y) ≤ rnd f.ldbl H :=
    rnd_le_of_rep (rep_rnd _ _) (by have := rnd_nonneg (f := f) y0.le; linarith)
  rcases hr with ⟨c1, c2⟩ | c
  · apply rnd_le_of_rep (rep_rnd _ _)
    have e8 := abs_le.1 (rnd_err_rel (f := f) (q := y) (by
      rw [abs_of_pos y0]; exact (minNormal_le' f).trans (le_trans (by norm_num) c1)))
    rw [abs_of_pos y0] at e8
    have : uro f * y ≤ 1 / 10 * y := mul_le_mul_of_nonneg_right (by linarith [uro_le_rat f]) y0.le
    norm_num only at c1
    linarith
  · have e : ∀ g : Fmt, g = x87 → rnd g (rnd g HALF_PI + 1 / 2 ^ 66) = rnd g HALF_PI := by
      rintro g rfl; decide +kernel
    have e := e f.ldbl (by rcases f with ⟨⟨⟩, ⟨⟩⟩ <;> first | rfl | cases hf)
    rw [hhp] at e
    refine le_trans ?_ e.le
    apply rnd_mono
    have : rnd f.ldbl a ≤ 1 / 2 ^ 67 := rnd_le_of_rep (rep_inv_pow2 (by norm_num)) c
    norm_num only at this ⊢
    linarith

theorem atan_order_eq {x : FV f} {M : ℕ} (hM : M ≠ 1) :
    atan_series_order x x 1 M = FV.cast f (FV.cast f.ldbl (whileDown (fun depth res => res + atan_series_order_calc (x * x)
          (pow_integral_uint x (4 * depth - 5)) depth) 1 (M - 1)
        (atan_series_order_calc (x * x) (pow_integral_uint x (4 * M - 5)) M)) + half_pi_minus_inv x) := by
  unfold atan_series_order
  rw [if_neg hM]

theorem atan_row (hf : f.exact = false) {q : ℚ} {z : Bool} (hx : Valid (fin q z : FV f)) {n : ℕ} {b B : ℚ} (hb : 5 / 2 ≤ b)
    (hq : b ≤ q) (hB : q ≤ B) (hB' : B ≤ 2 ^ 22) (hn : n ≤ 8) (h1 : B ^ (4 * n + 5) ≤ 2 ^ 112) :
    ∃ r, Is (atan_series_order (fin q z : FV f) (fin q z) 1 (n + 2)) r ∧
      |r - (HALF_PI - 1 / q + atanSer q n 2)| ≤ 224 / 100 * uro f + 3 / 10 ^ 19 ∧ r ≤ rnd f (rnd f.ldbl HALF_PI) := by
  have hq0 : 5 / 2 ≤ q := hb.trans hq
  have hq1 : 0 < q := by linarith
  have hp : q ^ (4 * (n + 2) - 3) ≤ 2 ^ 112 := by
    rw [show 4 * (n + 2) - 3 = 4 * n + 5 by omega]
    exact (pow_le_pow_left₀ (by linarith) hB _).trans h1
  have hl := atan_loop_rl hf hx hq0 (M := n + 2) (by omega) (by omega) hp
  have hs := atanSer_bounds hq0 n (k := 2) le_rfl
  norm_num only at hs
  obtain ⟨h0, -, a, ha, hb⟩ := hl
  rw [show n + 2 - 2 = n by omega] at *
  rw [atan_order_eq (by omega)]
  have e : (1 / q) ^ 3 = 1 / q ^ 3 := by rw [one_div_pow]
  have y1 : 1 / q ≤ 2 / 5 := by rw [div_le_iff₀ hq1]; linarith
  have y0 : 0 < 1 / q := by positivity
  have hS : atanSer q n 2 ≤ 103 / 300 * (1 / q) ^ 3 := by
    refine hs.2.trans (le_of_eq ?_)
    rw [e]; field_simp; norm_num
  have y3 : (1 / q) ^ 3 ≤ 8 / 125 := by
    have := pow_le_pow_left₀ y0.le y1 3
    exact this.trans (by norm_num)
  have hw0 := wro_pos f
  have hw1 := wro_le f
  refine atan_final hf hq0 ha h0.le hS (hb.trans ?_) (Or.inl ⟨?_, ?_⟩)
  · nlinarith
  · exact one_div_le_one_div_of_le hq1 (hB.trans hB')
  · have hb' := abs_le.1 hb
    have y2 : (1 / q) ^ 2 ≤ 4 / 25 := by nlinarith
    have y4 : (1 / q) ^ 3 ≤ 4 / 25 * (1 / q) := by rw [pow_succ]; exact mul_le_mul_of_nonneg_right y2 y0.le
    have : 12 * wro f * atanSer q n 2 ≤ 1 / 100 * atanSer q n 2 := mul_le_mul_of_nonneg_right (by linarith) h0.le
    linarith

theorem atan_row_big (hf : f.exact = false) {q : ℚ} {z : Bool} (hq : 2 ^ 22 ≤ q) :
    ∃ r, Is (atan_series_order (fin q z : FV f) (fin q z) 1 2) r ∧
      |r - (HALF_PI - 1 / q + atanSer q 0 2)| ≤ 224 / 100 * uro f + 3 / 10 ^ 19 ∧ r ≤ rnd f (rnd f.ldbl HALF_PI) := by
  have hq0 : 5 / 2 ≤ q := le_trans (by norm_num) hq
  have hq1 : 0 < q := by linarith
  have hs := atanSer_bounds hq0 0 (k := 2) le_rfl
  norm_num only at hs
  obtain ⟨a, ha, hb⟩ := atan_calc_big (f := f) (z := z) hq
  rw [atan_order_eq (by omega)]
  have e : (1 / q) ^ 3 = 1 / q ^ 3 := by rw [one_div_pow]
  have y0 : 0 < 1 / q := by positivity
  have y1 : 1 / q ≤ 1 / 2 ^ 22 := one_div_le_one_div_of_le (by norm_num) hq
  have y3 : (1 / q) ^ 3 ≤ 1 / 2 ^ 66 := by
    have := pow_le_pow_left₀ y0.le y1 3
    exact this.trans (by norm_num)
  have hS : atanSer q 0 2 ≤ 103 / 300 * (1 / q) ^ 3 := by
    refine hs.2.trans (le_of_eq ?_)
    rw [e]; field_simp; norm_num
  have h0 : 0 ≤ atanSer q 0 2 := le_trans (by positivity) hs.1
  have hw : whileDown (fun depth res => res + atan_series_order_calc (fin q z * fin q z)
          (pow_integral_uint (fin q z : FV f) (4 * depth - 5)) depth) 1 (2 - 1)
        (atan_series_order_calc (fin q z * fin q z) (pow_integral_uint (fin q z : FV f) (4 * 2 - 5)) 2)
      = atan_series_order_calc (fin q z * fin q z) (pow_integral_uint (fin q z : FV f) 3) 2 := rfl
  rw [hw]
  refine atan_final hf hq0 ha h0 hS ?_ (Or.inr (abs_le.1 hb).2)
  have hu := uro_ge' f
  have hw2 : wro f = 1001 / 1000 * uro f := rfl
  have hb' := abs_le.1 hb
  norm_num only at hu hb' y3
  rw [abs_le]
  constructor <;> linarith

theorem atan_series_val (hf : f.exact = false) {q : ℚ} {z : Bool} (hx : Valid (fin q z : FV f)) (hq : 5 / 2 < q) :
    ∃ r n, Is (atan_series_main (fin q z : FV f)) r ∧
      (|r - (HALF_PI - 1 / q + atanSer q n 2)| ≤ 224 / 100 * uro f + 3 / 10 ^ 19 ∧ r ≤ rnd f (rnd f.ldbl HALF_PI)) ∧
      (1 / q) ^ (4 * n + 7) / (4 * n + 7) ≤ 78 / 10 ^ 19 := by
  have tr : ∀ (n : ℕ) (b : ℚ), 0 < b → b ≤ q → (1 / b) ^ (4 * n + 7) / (4 * n + 7) ≤ 78 / 10 ^ 19 →
      (1 / q) ^ (4 * n + 7) / (4 * n + 7) ≤ 78 / 10 ^ 19 := by
    intro n b hb hbq h
    refine le_trans ?_ h
    apply div_le_div_of_nonneg_right _ (by positivity)
    exact pow_le_pow_left₀ (by positivity) (one_div_le_one_div_of_le hb hbq) _
  have row : ∀ (n : ℕ) (b B : ℚ), 5 / 2 ≤ b → b ≤ q → q ≤ B → B ≤ 2 ^ 22 → n ≤ 8 → B ^ (4 * n + 5) ≤ 2 ^ 112 →
      (1 / b) ^ (4 * n + 7) / (4 * n + 7) ≤ 78 / 10 ^ 19 →
      ∃ r m, Is (atan_series_order (fin q z : FV f) (fin q z) 1 (n + 2)) r ∧
      (|r - (HALF_PI - 1 / q + atanSer q m 2)| ≤ 224 / 100 * uro f + 3 / 10 ^ 19 ∧ r ≤ rnd f (rnd f.ldbl HALF_PI)) ∧
      (1 / q) ^ (4 * m + 7) / (4 * m + 7) ≤ 78 / 10 ^ 19 := by
    intro n b B h1 h2 h3 h3' h4 h5 h6
    obtain ⟨r, r1, r2, r3⟩ := atan_row hf hx h1 h2 h3 h3' h4 h5
    exact ⟨r, n, r1, ⟨r2, r3⟩, tr n b (by linarith) h2 h6⟩
  have hx' := is_fin (f := f) q z
  have th : ∀ n : ℤ, 0 ≤ n → n ≤ 1000 → ((fin q z : FV f) < i n ↔ q < n) := fun n h1 h2 =>
    hx'.lt_iff (is_i (by rw [abs_le]; constructor <;> linarith))
  unfold atan_series_main atan_series_orders
  have t3 := th 3 (by norm_num) (by norm_num)
  have t4 := th 4 (by norm_num) (by norm_num)
  have t5 := th 5 (by norm_num) (by norm_num)
  have t7 := th 7 (by norm_num) (by norm_num)
  have t11 := th 11 (by norm_num) (by norm_num)
  have t25 := th 25 (by norm_num) (by norm_num)
  have t100 := th 100 (by norm_num) (by norm_num)
  have t1000 := th 1000 (by norm_num) (by norm_num)
  simp only [t3, t4, t5, t7, t11, t25, t100, t1000]
  push_cast
  by_cases c1 : q < 3
  · rw [if_pos c1]; exact row 8 (5 / 2) 3 le_rfl hq.le c1.le (by norm_num) (by norm_num) (by norm_num) (by norm_num)
  rw [if_neg c1]; push Not at c1
  by_cases c2 : q < 4
  · rw [if_pos c2]; exact row 7 3 4 (by norm_num) c1 c2.le (by norm_num) (by norm_num) (by norm_num) (by norm_num)
  rw [if_neg c2]; push Not at c2
  by_cases c3 : q < 5
  · rw [if_pos c3]; exact row 6 4 5 (by norm_num) c2 c3.le (by norm_num) (by norm_num) (by norm_num) (by norm_num)
  rw [if_neg c3]; push Not at c3
  by_cases c4 : q < 7
  · rw [if_pos c4]; exact row 5 5 7 (by norm_num) c3 c4.le (by norm_num) (by norm_num) (by norm_num) (by norm_num)
  rw [if_neg c4]; push Not at c4
  by_cases c5 : q < 11
  · rw [if_pos c5]; exact row 4 7 11 (by norm_num) c4 c5.le (by norm_num) (by norm_num) (by norm_num) (by norm_num)
  rw [if_neg c5]; push Not at c5
  by_cases c6 : q < 25
  · rw [if_pos c6]; exact row 3 11 25 (by norm_num) c5 c6.le (by norm_num) (by norm_num) (by norm_num) (by norm_num)
  rw [if_neg c6]; push Not at c6
  by_cases c7 : q < 100
  · rw [if_pos c7]; exact row 2 25 100 (by norm_num) c6 c7.le (by norm_num) (by norm_num) (by norm_num) (by norm_num)
  rw [if_neg c7]; push Not at c7
  by_cases c8 : q < 1000
  · rw [if_pos c8]; exact row 1 100 1000 (by norm_num) c7 c8.le (by norm_num) (by norm_num) (by norm_num) (by norm_num)
  rw [if_neg c8]; push Not at c8
  rcases le_total q (2 ^ 22) with c9 | c9
  · exact row 0 1000 (2 ^ 22) (by norm_num) c8 c9 le_rfl (by norm_num) (by norm_num) (by norm_num)
  · obtain ⟨r, r1, r2, r3⟩ := atan_row_big (f := f) (z := z) hf c9
    exact ⟨r, 0, r1, ⟨r2, r3⟩, tr 0 1000 (by norm_num) c8 (by norm_num)⟩

theorem atan_series_acc (hf : f.exact = false) {q : ℚ} {z : Bool} (hx : Valid (fin q z : FV f)) (hq : 5 / 2 < q) :
    ∃ a, Is (atan_series_main (fin q z : FV f)) a ∧ a ≤ rnd f (rnd f.ldbl HALF_PI) ∧
      |(a:ℝ) - arctan q| ≤ (2 * uro f + 8 / 10 ^ 18) * arctan q := by
  obtain ⟨a, n, h1, ⟨h2, hr⟩, h3⟩ := atan_series_val hf hx hq
  refine ⟨a, h1, hr, ?_⟩
  have hq0 : 0 < q := by linarith
  have q0 : (5 / 2 : ℝ) < q := by
    have := (Rat.cast_lt (K := ℝ)).2 hq
    push_cast at this; exact this
  have t := atanSer_arctan hq0 n
  have h2' := (Rat.cast_le (K := ℝ)).2 h2
  have h3' := (Rat.cast_le (K := ℝ)).2 h3
  rw [Rat.cast_abs] at h2'
  push_cast at h2' h3'
  have hp := HALF_PI_err
  have al : 117 / 100 ≤ arctan q := by
    have e := Real.arctan_inv_of_pos (show (0:ℝ) < q by linarith)
    have s := (abs_le.1 (atanTay_err 0 (y := (q:ℝ)⁻¹) (by positivity))).2
    simp [atanTay] at s
    have : (q:ℝ)⁻¹ ≤ 2 / 5 := by rw [inv_le_comm₀ (by linarith) (by norm_num)]; norm_num; linarith
    have hh := abs_le.1 hp
    have hl : ((15707 / 10000 : ℚ) : ℝ) ≤ ((HALF_PI : ℚ) : ℝ) := Rat.cast_le.2 (by decide +kernel)
    push_cast at hl hh
    norm_num only at hh
    linarith
  have u0 := uro_pos_real f
  have hp' := abs_le.1 hp
  have t' := abs_le.1 (t.trans h3')
  have r' := abs_le.1 h2'
  push_cast at hp'
  generalize ((HALF_PI : ℚ) : ℝ) = H at *
  generalize ((atanSer q n 2 : ℚ) : ℝ) = S at *
  generalize arctan (q:ℝ) = A at *
  generalize ((uro f : ℚ) : ℝ) = u at *
  have k : (2 * u + 8 / 10 ^ 18) * (117 / 100) ≤ (2 * u + 8 / 10 ^ 18) * A :=
    mul_le_mul_of_nonneg_left al (by positivity)
  refine le_trans ?_ k
  rw [abs_le]
  norm_num only at hp' t' r' ⊢
  constructor <;> linarith

/-! ## C45 -/

theorem atan_pos {q : ℚ} {z : Bool} (h : minNormal f ≤ q) : atan (fin q z : FV f) = atan_begin (fin q z) := by
  have h0 := minNormal_pos f
  rw [atan_def, if_neg (by simp), if_neg (by rw [limMin_gt_fabs, abs_of_pos (by linarith)]; linarith), if_neg]
  rw [i_zero]
  simp; linarith

theorem arctan_near {q : ℝ} (h0 : 0 < q) (h : q ≤ 1 / 2 ^ 40) : |q - arctan q| ≤ 1 / 2 ^ 81 * arctan q := by
  have t := atanTay_err 1 h0.le
  simp [atanTay] at t
  norm_num only at t
  rw [abs_sub_comm] at t
  have : q ^ 2 ≤ 1 / 2 ^ 80 := by
    have := pow_le_pow_left₀ h0.le h 2
    exact this.trans (by norm_num)
  have h3 : q ^ 3 ≤ 1 / 2 ^ 80 * q := by rw [pow_succ]; exact mul_le_mul_of_nonneg_right this h0.le
  have t' := abs_le.1 t
  refine t.trans ?_
  norm_num only at h3 ⊢
  linarith

theorem atan_acc_pos (hf : f.exact = false) {q : ℚ} {z : Bool} (hx : Valid (fin q z : FV f)) (hn : minNormal f ≤ q) :
    ∃ a, Is (atan (fin q z : FV f)) a ∧ (q ≤ 1 / 2 ^ 40 → a = q) ∧
      (q ≤ 5 / 2 → |(a:ℝ) - arctan q| ≤ ((21 / 10 + 136 / 100 * (q:ℝ) ^ 2) * uro f + 163 / 10 ^ 19) * arctan q) ∧
      (5 / 2 < q → |(a:ℝ) - arctan q| ≤ (2 * uro f + 8 / 10 ^ 18) * arctan q) ∧
      a ≤ rnd f (rnd f.ldbl HALF_PI) := by
  have up : ∀ a : ℚ, (a : ℝ) ≤ 5 / 4 → a ≤ rnd f (rnd f.ldbl HALF_PI) := by
    intro a ha
    have ha' : a ≤ 5 / 4 := by
      have : ((a : ℚ) : ℝ) ≤ ((5 / 4 : ℚ) : ℝ) := by push_cast; exact ha
      exact_mod_cast this
    refine ha'.trans ?_
    rcases f with ⟨⟨⟩, ⟨⟩⟩ <;> decide +kernel
  have hq : 0 < q := lt_of_lt_of_le (minNormal_pos f) hn
  have q0 : (0:ℝ) < q := by exact_mod_cast hq
  have ap : 0 < arctan q := Real.arctan_pos.2 q0
  have u0 := uro_pos_real f
  rw [atan_pos hn]
  rcases le_or_gt q (5 / 2) with c | c
  · rw [atan_begin_le c]
    rcases le_or_gt q (1 / 2 ^ 40) with c2 | c2
    · refine ⟨q, atan_tiny_id hf hx.rep hq c2, fun _ => rfl, fun _ => ?_, fun h => absurd h (by linarith), ?_⟩
      swap
      · apply up
        have := (Rat.cast_le (K := ℝ)).2 c2
        push_cast at this; norm_num only at this; linarith
      have c2' : (q:ℝ) ≤ 1 / 2 ^ 40 := by
        have := (Rat.cast_le (K := ℝ)).2 c2
        push_cast at this; exact this
      refine (arctan_near q0 c2').trans (mul_le_mul_of_nonneg_right ?_ ap.le)
      have : 0 ≤ (21 / 10 + 136 / 100 * (q:ℝ) ^ 2) * uro f := by positivity
      norm_num only at this ⊢
      linarith
    · obtain ⟨a, h1, h2⟩ := atan_direct (f := f) (z := z) c2.le c
      refine ⟨a, h1, fun h => absurd h (by linarith), fun _ => h2, fun h => absurd h (by linarith), up a ?_⟩
      have c' : (q:ℝ) ≤ 5 / 2 := by
        have := (Rat.cast_le (K := ℝ)).2 c
        push_cast at this; exact this
      have hA : arctan q ≤ 12 / 10 := by
        have e := Real.arctan_inv_of_pos (show (0:ℝ) < 5 / 2 by norm_num)
        have s := (abs_le.1 (atanTay_err 2 (y := ((5 / 2 : ℝ))⁻¹) (by positivity))).1
        simp only [atanTay, Finset.sum_range_succ, Finset.sum_range_zero] at s
        have hh := abs_le.1 HALF_PI_err
        have hl : ((HALF_PI : ℚ) : ℝ) ≤ ((15708 / 10000 : ℚ) : ℝ) := Rat.cast_le.2 (by decide +kernel)
        push_cast at hl hh s
        norm_num at hh s
        norm_num at e
        have := Real.arctan_mono c'
        linarith
      have u1 := uro_le f
      have hs : (q:ℝ) ^ 2 ≤ 25 / 4 := by nlinarith
      have k : ((21 / 10 + 136 / 100 * (q:ℝ) ^ 2) * uro f + 163 / 10 ^ 19) ≤ 1 / 100 := by
        have := mul_le_mul (show 21 / 10 + 136 / 100 * (q:ℝ) ^ 2 ≤ 11 by linarith) u1 u0.le (by norm_num)
        norm_num only at this ⊢
        linarith
      have h3 := (abs_le.1 (h2.trans (mul_le_mul_of_nonneg_right k ap.le))).2
      linarith
  · rw [atan_begin_gt c]
    obtain ⟨a, h1, hr, h2⟩ := atan_series_acc hf hx c
    exact ⟨a, h1, fun h => absurd h (by norm_num; linarith), fun h => absurd h (by linarith), fun _ => h2, hr⟩

theorem atan_neg_fin {q : ℚ} {z : Bool} (hn : minNormal f ≤ |q|) :
    atan (fin q z : FV f) = -atan (-(fin q z) : FV f) := by
  have := (C44_odd (fin q z : FV f)).1 (by rw [limMin_gt_fabs]; linarith)
  rw [this, neg_neg']

/-- reduction to positive arguments -/
theorem atan_odd_transfer {q : ℚ} {z : Bool} (hx : Valid (fin q z : FV f)) (hn : minNormal f ≤ |q|)
    {P : ℝ → ℝ → Prop} (hP : ∀ a b, P a b → P (-a) (-b))
    (h : ∀ (p : ℚ) (w : Bool), Valid (fin p w : FV f) → |p| = |q| → minNormal f ≤ p → ∃ a, Is (atan (fin p w : FV f)) a ∧ P a p) :
    ∃ a, Is (atan (fin q z : FV f)) a ∧ P a q := by
  have h0 := minNormal_pos f
  rcases le_or_gt 0 q with c | c
  · exact h q z hx rfl (by rwa [abs_of_nonneg c] at hn)
  · rw [abs_of_neg c] at hn
    have e : (-(fin q z) : FV f) = fin (-q) z := by rw [neg_fin, if_neg c.ne]
    obtain ⟨a, h1, h2⟩ := h (-q) z (e ▸ hx.neg) (abs_neg q) hn
    refine ⟨-a, ?_, ?_⟩
    · rw [atan_neg_fin (by rwa [abs_of_neg c]), e]; exact h1.neg
    · have := hP _ _ h2
      push_cast at this ⊢
      rwa [neg_neg] at this

/-- C45: in every rounded type and for every normal argument the relative error of `atan` is at most eleven unit
roundoffs plus `1.63e-17`. -/
theorem C45_accuracy (hf : f.exact = false) (q : ℚ) (z : Bool) (hx : Valid (fin q z : FV f)) (hn : minNormal f ≤ |q|) :
    ∃ r w, atan (fin q z : FV f) = fin r w ∧
      |(r:ℝ) - arctan q| ≤ (11 * (1 / 2 ^ f.prec) + 163 / 10 ^ 19) * |arctan q| := by
  have := atan_odd_transfer hx hn (P := fun a b => |a - arctan b| ≤ (11 * (1 / 2 ^ f.prec) + 163 / 10 ^ 19) * |arctan b|)
    (by
      intro a b h
      rw [Real.arctan_neg, abs_neg, ← abs_neg (-a - -arctan b)]
      convert h using 2; ring) (by
      intro p w hv hpq hp
      obtain ⟨a, h1, -, h2, h3, -⟩ := atan_acc_pos hf hv hp
      have hp0 : 0 < p := lt_of_lt_of_le (minNormal_pos f) hp
      have p0 : (0:ℝ) < p := by exact_mod_cast hp0
      have ap : 0 < arctan p := Real.arctan_pos.2 p0
      have u0 := uro_pos_real f
      refine ⟨a, h1, ?_⟩
      rw [abs_of_pos ap, ← uro_eq]
      rcases le_or_gt p (5 / 2) with c | c
      · refine (h2 c).trans (mul_le_mul_of_nonneg_right ?_ ap.le)
        have c' : (p:ℝ) ≤ 5 / 2 := by
          have := (Rat.cast_le (K := ℝ)).2 c
          push_cast at this; exact this
        have : (p:ℝ) ^ 2 ≤ 25 / 4 := by nlinarith
        have := mul_le_mul_of_nonneg_right (show 21 / 10 + 136 / 100 * (p:ℝ) ^ 2 ≤ 11 by linarith) u0.le
        linarith
      · refine (h3 c).trans (mul_le_mul_of_nonneg_right ?_ ap.le)
        norm_num only
        linarith)
  obtain ⟨a, ⟨w, h1⟩, h2⟩ := this
  exact ⟨a, w, h1, h2⟩

/-- C45: below `2^-40` the result is the argument itself. -/
theorem C45_small (hf : f.exact = false) (q : ℚ) (z : Bool) (hx : Valid (fin q z : FV f)) (hn : minNormal f ≤ |q|)
    (h : |q| ≤ 1 / 2 ^ 40) : ∃ w, atan (fin q z : FV f) = fin q w := by
  have h0 := minNormal_pos f
  have := atan_odd_transfer hx hn (P := fun a b => a = b) (by intro a b h; rw [h]) (by
      intro p w hv hpq hp
      obtain ⟨a, h1, h2, -, -, -⟩ := atan_acc_pos hf hv hp
      refine ⟨a, h1, ?_⟩
      rw [h2 (by rw [← hpq, abs_of_pos (by linarith)] at h; exact h)])
  obtain ⟨a, ⟨w, h1⟩, h2⟩ := this
  have : a = q := by exact_mod_cast h2
  rw [this] at h1
  exact ⟨w, h1⟩

/-- C45: sharper bounds: near the origin about two unit roundoffs, and beyond 5/2 two unit roundoffs plus `8e-18`. -/
theorem C45_ranges (hf : f.exact = false) (q : ℚ) (z : Bool) (hx : Valid (fin q z : FV f)) (hn : minNormal f ≤ |q|) :
    ∃ r w, atan (fin q z : FV f) = fin r w ∧
      (|q| ≤ 5 / 2 → |(r:ℝ) - arctan q| ≤ ((21 / 10 + 136 / 100 * (q:ℝ) ^ 2) * (1 / 2 ^ f.prec) + 163 / 10 ^ 19) * |arctan q|) ∧
      (5 / 2 < |q| → |(r:ℝ) - arctan q| ≤ (2 * (1 / 2 ^ f.prec) + 8 / 10 ^ 18) * |arctan q|) := by
  have := atan_odd_transfer hx hn (P := fun a b =>
      (|q| ≤ 5 / 2 → |a - arctan b| ≤ ((21 / 10 + 136 / 100 * b ^ 2) * (1 / 2 ^ f.prec) + 163 / 10 ^ 19) * |arctan b|) ∧
      (5 / 2 < |q| → |a - arctan b| ≤ (2 * (1 / 2 ^ f.prec) + 8 / 10 ^ 18) * |arctan b|))
    (by
      intro a b h
      have e : |-a - arctan (-b)| = |a - arctan b| := by
        rw [Real.arctan_neg, ← abs_neg (-a - -arctan b)]; congr 1; ring
      rw [e, Real.arctan_neg, abs_neg, neg_sq]
      exact h) (by
      intro p w hv hpq hp
      obtain ⟨a, h1, -, h2, h3, -⟩ := atan_acc_pos hf hv hp
      have hp0 : 0 < p := lt_of_lt_of_le (minNormal_pos f) hp
      have p0 : (0:ℝ) < p := by exact_mod_cast hp0
      have ap : 0 < arctan p := Real.arctan_pos.2 p0
      refine ⟨a, h1, ?_⟩
      rw [abs_of_pos ap, ← uro_eq, ← hpq, abs_of_pos hp0]
      exact ⟨h2, h3⟩)
  obtain ⟨a, ⟨w, h1⟩, h2⟩ := this
  exact ⟨a, w, h1, h2⟩

/-- C44: the result is never beyond the stored value of `π/2`, and a normal argument gives a nonzero result of
the same sign. -/
theorem C44_range (hf : f.exact = false) (q : ℚ) (z : Bool) (hx : Valid (fin q z : FV f)) :
    fabs (atan (fin q z : FV f)) ≤ (L HALF_PI : FV f) ∧
    (minNormal f ≤ |q| → (fin 0 false < atan (fin q z : FV f) ↔ 0 < q) ∧ (atan (fin q z : FV f) < fin 0 false ↔ q < 0)) := by
  have hLp : Is (L HALF_PI : FV f) (rnd f (rnd f.ldbl HALF_PI)) := by
    refine is_mk (nov ?_)
    have h1 : rnd f.ldbl HALF_PI ≤ 2 := rnd_le_of_rep (by simpa using rep_pow2_nat (f := f.ldbl) (n := 1)) (by decide +kernel)
    rw [abs_of_nonneg (rnd_nonneg (by decide +kernel))]; linarith
  have hL0 : 0 ≤ rnd f (rnd f.ldbl HALF_PI) := rnd_nonneg (rnd_nonneg (by decide +kernel))
  rcases lt_or_ge |q| (minNormal f) with c | c
  · refine ⟨?_, fun h => absurd c (not_lt.2 h)⟩
    rw [atan_tiny c]
    refine ((is_fin 0 false).fabs.le_iff hLp).2 (by simpa using hL0)
  have := atan_odd_transfer hx c (P := fun a b => |a| ≤ ((rnd f (rnd f.ldbl HALF_PI) : ℚ) : ℝ) ∧ 0 < a * b)
    (by rintro a b ⟨h1, h2⟩; exact ⟨by rwa [abs_neg], by nlinarith⟩) (by
      intro p w hv hpq hp
      obtain ⟨a, h1, -, h2, h3, h4⟩ := atan_acc_pos hf hv hp
      have hp0 : 0 < p := lt_of_lt_of_le (minNormal_pos f) hp
      have p0 : (0:ℝ) < p := by exact_mod_cast hp0
      have ap : 0 < arctan p := Real.arctan_pos.2 p0
      have u0 := uro_pos_real f
      have u1 := uro_le f
      have a0 : (0:ℝ) < a := by
        rcases le_or_gt p (5 / 2) with c | c
        · have c' : (p:ℝ) ≤ 5 / 2 := by
            have := (Rat.cast_le (K := ℝ)).2 c
            push_cast at this; exact this
          have hs : (p:ℝ) ^ 2 ≤ 25 / 4 := by nlinarith
          have k : ((21 / 10 + 136 / 100 * (p:ℝ) ^ 2) * uro f + 163 / 10 ^ 19) ≤ 1 / 100 := by
            have := mul_le_mul (show 21 / 10 + 136 / 100 * (p:ℝ) ^ 2 ≤ 11 by linarith) u1 u0.le (by norm_num)
            norm_num only at this ⊢
            linarith
          have h5 := (abs_le.1 ((h2 c).trans (mul_le_mul_of_nonneg_right k ap.le))).1
          linarith
        · have k : (2 * (uro f : ℝ) + 8 / 10 ^ 18) ≤ 1 / 100 := by norm_num only; linarith
          have h5 := (abs_le.1 ((h3 c).trans (mul_le_mul_of_nonneg_right k ap.le))).1
          linarith
      refine ⟨a, h1, ?_, mul_pos a0 p0⟩
      rw [abs_of_pos a0]; exact_mod_cast h4)
  obtain ⟨a, h1, h2, h3⟩ := this
  have h3' : 0 < a * q := by exact_mod_cast h3
  refine ⟨(h1.fabs.le_iff hLp).2 (by exact_mod_cast h2), fun _ => ⟨?_, ?_⟩⟩
  · rw [(is_fin 0 false).lt_iff h1]
    constructor
    · intro h; exact (pos_iff_pos_of_mul_pos h3').1 h
    · intro h; exact (pos_iff_pos_of_mul_pos h3').2 h
  · rw [h1.lt_iff (is_fin 0 false)]
    exact neg_iff_neg_of_mul_pos h3'

/-- the largest finite `double` -/
example : fabs (atan (fin ((2 - 1 / 2 ^ 52) * 2 ^ 1023) false : FV binary64)) ≤ (L HALF_PI : FV binary64) :=
  (C44_range rfl _ _ (by decide +kernel)).1

/-- `atan(1)` in `double` -/
example : ∃ r w, atan (fin 1 false : FV binary64) = fin r w ∧
    |(r:ℝ) - Real.pi / 4| ≤ (11 * (1 / 2 ^ 53) + 163 / 10 ^ 19) * (Real.pi / 4) := by
  have := C45_accuracy (f := binary64) rfl 1 false (by decide +kernel) (by decide +kernel)
  have hp := Real.pi_pos
  rw [Rat.cast_one, Real.arctan_one, abs_of_pos (by positivity)] at this
  exact this

end Gcem.Props
