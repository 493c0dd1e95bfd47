import Verif.Analysis.TanhReal
import Verif.Analysis.AtanCf
import Verif.Props.Hyper
import Verif.Props.AtanAcc

/-!
# C68: accuracy of tanh
-/

namespace Gcem
open FV Props
variable {f : Fmt}

theorem tanh_step_rl {s T M c : ℚ} {D : ℕ} {xx v : FV f} (hD : 1 ≤ D) (hD' : D ≤ 60)
    (hx : Rl xx s 1) (hs0 : 1 / 2 ^ 80 ≤ s) (hs : s ≤ 1000)
    (hv : Rl v T c) (hT : 1 ≤ T) (hT' : T ≤ 2000) (hc : c ≤ 80) (hM : 2 * D - 1 + s / T ≤ M) :
    Rl (tanh_cf_step xx D v) (2 * D - 1 + s / T) ((1 - (2 * D - 1) / M) * (100001 / 100000 * c + 2) + 1) := by
  have c0 := hv.nonneg
  have d1 : (1:ℚ) ≤ D := by exact_mod_cast hD
  have d2 : (D:ℚ) ≤ 60 := by exact_mod_cast hD'
  have i1 : Is (i (2 * (D : ℤ) - 1) : FV f) (2 * (D : ℚ) - 1) := by
    have := is_i (f := f) (n := 2 * (D : ℤ) - 1) (by rw [abs_le]; constructor <;> omega)
    push_cast at this; exact this
  have sp : 0 < s := lt_of_lt_of_le (by norm_num) hs0
  have Tp : 0 < T := by linarith
  have q0 : 0 < s / T := by positivity
  have q1 : 1 / 2 ^ 120 ≤ s / T := by
    rw [le_div_iff₀ Tp]
    have : (1 / 2 ^ 120 : ℚ) * T ≤ 1 / 2 ^ 120 * 2000 := mul_le_mul_of_nonneg_left hT' (by norm_num)
    norm_num at this hs0 ⊢; linarith
  have q2 : s / T ≤ 1000 := (div_le_self sp.le hT).trans hs
  have s2 : Rl (xx / v : FV f) (s / T) (100001 / 100000 * c + 2) := by
    refine hx.div hv q1 (q2.trans (by norm_num)) ?_ (by linarith)
    nlinarith [mul_nonneg c0 (sub_nonneg.2 hc)]
  have Mp : 0 < M := by linarith
  have F : s / T ≤ (1 - (2 * D - 1) / M) * (2 * D - 1 + s / T) := by
    have : (2 * (D:ℚ) - 1) / M * (2 * D - 1 + s / T) ≤ 2 * D - 1 := by
      rw [div_mul_eq_mul_div, div_le_iff₀ Mp]; exact mul_le_mul_of_nonneg_left hM (by linarith)
    linarith
  have F0 : 0 ≤ 1 - (2 * (D:ℚ) - 1) / M := by
    rw [sub_nonneg]; exact div_le_one_of_le₀ (by linarith) Mp.le
  have F1 : 1 - (2 * (D:ℚ) - 1) / M ≤ 1 := by
    have := div_nonneg (show 0 ≤ 2 * (D:ℚ) - 1 by linarith) Mp.le; linarith
  refine (i1.rl (by linarith)).add s2 (C := (1 - (2 * D - 1) / M) * (100001 / 100000 * c + 2)) ?_ ?_ ?_ le_rfl ?_
  · have : (1 / 2 ^ 120 : ℚ) ≤ 1 := by norm_num
    linarith
  · have : (1200 : ℚ) ≤ 2 ^ 120 := by norm_num
    linarith
  · have := mul_le_mul_of_nonneg_left F (show 0 ≤ 100001 / 100000 * c + 2 by linarith)
    linarith
  · have := mul_le_mul_of_nonneg_right F1 (show 0 ≤ 100001 / 100000 * c + 2 by linarith)
    linarith

theorem tanh_cf_rl {s X : ℚ} {xx : FV f} (hx : Rl xx s 1) (hs0 : 1 / 2 ^ 80 ≤ s) (hsX : s ≤ X) (hX : X ≤ 1000)
    (hC : ∀ d < 34, thC X (34 - (d + 1)) (d + 1 + 1) ≤ 80) :
    Rl (tanh_cf xx 1) (thT s 34 1) (thC X 34 1) := by
  have sp : 0 ≤ s := le_trans (by norm_num) hs0
  unfold tanh_cf
  have := whileDown_inv (tanh_cf_step xx) 0
    (fun d v => d ≤ 34 ∧ Rl v (thT s (34 - d) (d + 1)) (thC X (34 - d) (d + 1))) ?_ 34
    (i (2 * (TANH_MAX_ITER : ℕ) - 1)) (by omega) ⟨le_rfl, ?_⟩
  · exact this.2
  · rintro d v - ⟨hd, hv⟩
    refine ⟨by omega, ?_⟩
    have e : 34 - d = (34 - (d + 1)) + 1 := by omega
    have hT := thT_ge s sp (34 - (d + 1)) (d + 1 + 1) (by omega)
    have hT' := thT_le s sp (34 - (d + 1)) (d + 1 + 1) (by omega)
    have hM := (thT_mono sp hsX (34 - (d + 1) + 1) (d + 1) (by omega)).1
    have hd2 : ((d:ℚ) + 1) ≤ 34 := by exact_mod_cast hd
    have hd0 : (0:ℚ) ≤ d := Nat.cast_nonneg d
    rw [e, thT_succ, thC]
    rw [thT_succ s] at hM
    simp only [Nat.cast_add, Nat.cast_one] at hT hT'
    have := tanh_step_rl (D := d + 1) (by omega) (by omega) hx hs0 (hsX.trans hX) hv (by linarith) (by linarith)
      (hC _ (by omega)) hM
    exact this
  · have h : Is (i (2 * ((TANH_MAX_ITER : ℕ) : ℤ) - 1) : FV f) 69 := by
      have := is_i (f := f) (n := 69) (by norm_num)
      push_cast at this; exact this
    have e : thT s (34 - 34) (34 + 1) = 69 := by rw [Nat.sub_self, thT_zero]; norm_num
    rw [e, Nat.sub_self]
    exact h.rl (by norm_num)

theorem tanh_cf_tiny {s : ℚ} {xx : FV f} (hf : f.exact = false) (hx : Is xx s) (hs0 : 0 ≤ s) (hs : s ≤ 1 / 2 ^ 80) :
    Is (tanh_cf xx 1) 1 := by
  have key : ∀ (D : ℕ) (v : FV f) (t : ℚ), D ≤ 60 → 1 ≤ D → Is v t → 1 ≤ t →
      ∃ q, Is (tanh_cf_step xx D v) (rnd f (2 * D - 1 + q)) ∧ 0 ≤ q ∧ q ≤ 1 / 2 ^ 80 := by
    intro D v t hD hD1 hv ht
    have d1 : (1:ℚ) ≤ D := by exact_mod_cast hD1
    have d2 : (D:ℚ) ≤ 60 := by exact_mod_cast hD
    have i1 : Is (i (2 * (D : ℤ) - 1) : FV f) (2 * (D : ℚ) - 1) := by
      have := is_i (f := f) (n := 2 * (D : ℤ) - 1) (by rw [abs_le]; constructor <;> omega)
      push_cast at this; exact this
    have q0 : 0 ≤ s / t := div_nonneg hs0 (by linarith)
    have q1 : s / t ≤ 1 / 2 ^ 80 := (div_le_self hs0 ht).trans hs
    have j2 := hx.div hv (by linarith) (nov (by
      rw [abs_of_nonneg q0]; exact q1.trans (by norm_num)))
    have r0 : 0 ≤ rnd f (s / t) := rnd_nonneg q0
    have r1 := rnd_le_of_rep (f := f) (rep_inv_pow2 (k := 80) (by norm_num)) q1
    refine ⟨_, i1.add j2 (nov ?_), r0, r1⟩
    generalize rnd f (s / t) = Q at *
    rw [abs_of_nonneg (by linarith)]
    have : (200:ℚ) ≤ 2 ^ 127 := by norm_num
    norm_num at r1
    linarith
  unfold tanh_cf
  rw [show TANH_MAX_ITER - 1 = 34 from rfl, show 1 - 1 = 0 from rfl, whileDown_split _ 0 1 (by omega) 34 _ (by omega),
    whileDown_one]
  obtain ⟨-, t, ht, ht1⟩ := whileDown_inv (tanh_cf_step xx) 1 (fun d v => d ≤ 34 ∧ ∃ t, Is v t ∧ 1 ≤ t) (by
    rintro d v - ⟨hd, t, hv, ht⟩
    refine ⟨by omega, ?_⟩
    obtain ⟨q, h1, h2, h3⟩ := key (d + 1) v t (by omega) (by omega) hv ht
    refine ⟨_, h1, ?_⟩
    have rone : Rep f 1 := by have := rep_pow2_nat (f := f) (n := 0); simpa using this
    have hd0 : (0:ℚ) ≤ d := Nat.cast_nonneg d
    have := rnd_mono (f := f) (show (1:ℚ) ≤ 2 * ((d + 1 : ℕ) : ℚ) - 1 + q by push_cast; linarith)
    rwa [rone] at this) 34 (i (2 * ((TANH_MAX_ITER : ℕ) : ℤ) - 1)) (by omega) ⟨le_rfl, 69, by
      have := is_i (f := f) (n := 69) (by norm_num)
      push_cast at this; exact this, by norm_num⟩
  obtain ⟨q, h1, h2, h3⟩ := key 1 _ t (by norm_num) le_rfl ht ht1
  have e : rnd f (2 * ((1:ℕ):ℚ) - 1 + q) = 1 := by
    norm_num
    exact rnd_one_add hf h2 (h3.trans (by norm_num))
  rw [e] at h1
  exact h1

theorem tanh_tiny_id (hf : f.exact = false) {q : ℚ} {z : Bool} (hx : Rep f q) (h0 : 0 < q) (h : q ≤ 1 / 2 ^ 40) :
    Is (tanh_begin (fin q z : FV f)) q := by
  have hqq : q * q ≤ 1 / 2 ^ 80 := by
    have := mul_le_mul h h h0.le (by norm_num : (0:ℚ) ≤ 1 / 2 ^ 40)
    exact this.trans (by norm_num)
  have hsq : Is (fin q z * fin q z : FV f) (rnd f (q * q)) :=
    (is_fin q z).mul (is_fin q z) (nov (by rw [abs_of_nonneg (by positivity)]; exact hqq.trans (by norm_num)))
  have := tanh_cf_tiny hf hsq (rnd_nonneg (by positivity))
    (rnd_le_of_rep (f := f) (rep_inv_pow2 (k := 80) (by norm_num)) hqq)
  unfold tanh_begin
  have r := (is_fin (f := f) q z).div this one_ne_zero (by
    rw [div_one]; exact nov (by rw [abs_of_pos h0]; exact h.trans (by norm_num)))
  rw [div_one, hx] at r
  exact r

theorem uro_ge63 (hf : f.exact = false) : (1 / 2 ^ 64 : ℚ) ≤ uro f := by
  unfold uro
  obtain ⟨ty, ex⟩ := f
  cases (show ex = false from hf)
  cases ty <;> decide +kernel

theorem tanh_pos_real {x : ℝ} (hx : 0 < x) : 0 < Real.tanh x := by
  rw [Real.tanh_eq_sinh_div_cosh]
  exact div_pos (Real.sinh_pos_iff.2 hx) (Real.cosh_pos x)

/-- near zero `tanh x = x` up to a relative error of `x^2/3` -/
theorem self_le_tanh {x : ℝ} (hx : 0 < x) : Real.tanh x ≤ x ∧ x ≤ (1 + x ^ 2 / 3) * Real.tanh x := by
  have h1 := tanhR_rec 1 le_rfl hx
  have h2 := tanhR_ge 2 (by norm_num) hx
  have h3 := tanhR_ge 1 le_rfl hx
  rw [← tanhR_one hx]
  push_cast at h1 h2 h3
  norm_num at h1 h2 h3
  constructor
  · exact div_le_self hx.le h3
  · rw [mul_div_assoc', le_div_iff₀ (by linarith), mul_comm]
    apply mul_le_mul_of_nonneg_right _ hx.le
    rw [h1]
    have : x ^ 2 / tanhR 2 x ≤ x ^ 2 / 3 := div_le_div_of_nonneg_left (sq_nonneg x) (by norm_num) h2
    linarith

/-- error of the continued fraction for arguments in `[2^-40, sqrt X]` -/
theorem tanh_direct (hf : f.exact = false) {q X c E K : ℚ} {z : Bool} (h0 : 1 / 2 ^ 40 ≤ q) (h : q * q ≤ X) (hX : X ≤ 1000)
    (hC : ∀ d < 34, thC X (34 - (d + 1)) (d + 1 + 1) ≤ 80) (hE : thE X 34 1 ≤ E) (hE' : E ≤ 1 / 10 ^ 20)
    (hc : thC X 34 1 ≤ c) (hc' : c ≤ 80)
    (hK : (c + 11 / 10 ^ 8 * (c * c) + 1) * (1001 / 1000) * (1 + 1 / 10 ^ 20) + E * 2 ^ 64 ≤ K) :
    ∃ a, Is (tanh_begin (fin q z : FV f)) a ∧ |(a:ℝ) - Real.tanh q| ≤ K * uro f * Real.tanh q := by
  have hq : 0 < q := lt_of_lt_of_le (by norm_num) h0
  have hqq' : 1 / 2 ^ 80 ≤ q * q := by
    have := mul_le_mul h0 h0 (by norm_num) hq.le
    exact le_trans (by norm_num) this
  have hx : Rl (fin q z : FV f) q 0 := (is_fin q z).rl hq
  have hxx : Rl (fin q z * fin q z : FV f) (q * q) 1 :=
    hx.mul hx (le_trans (by norm_num) hqq') ((h.trans hX).trans (by norm_num)) (by norm_num) (by norm_num)
  have hcf := (tanh_cf_rl hxx hqq' h hX hC).mono hc (by linarith)
  have T1 := thT_ge (q * q) (by positivity) 34 1 le_rfl
  have T2 := thT_le (q * q) (by positivity) 34 1 le_rfl
  push_cast at T1 T2
  norm_num at T1 T2
  have T0 : 0 < thT (q * q) 34 1 := by linarith
  have c0 : 0 ≤ c := (thC_bounds (le_trans (by positivity) h) 34 1 le_rfl (by norm_num)).1.trans hc
  have hq32 : q ≤ 32 := by
    by_contra hcon
    push Not at hcon
    nlinarith
  have hd := hx.div hcf (c'' := c + 11 / 10 ^ 8 * (c * c) + 1) (by
      rw [le_div_iff₀ T0]
      have : (1 / 2 ^ 120 : ℚ) * thT (q * q) 34 1 ≤ 1 / 2 ^ 120 * 2000 :=
        mul_le_mul_of_nonneg_left (by linarith) (by norm_num)
      refine this.trans (le_trans ?_ h0); norm_num) (by
      rw [div_le_iff₀ T0]
      have : (2:ℚ) ^ 120 * 1 ≤ 2 ^ 120 * thT (q * q) 34 1 := mul_le_mul_of_nonneg_left T1 (by norm_num)
      refine le_trans (hq32.trans (by norm_num)) this) (le_of_eq (by ring)) (by nlinarith)
  obtain ⟨p, -, a, ha, hb⟩ := hd
  unfold tanh_begin
  refine ⟨a, ha, ?_⟩
  have hb' := (Rat.cast_le (K := ℝ)).2 hb
  rw [Rat.cast_abs, Rat.cast_sub, Rat.cast_div] at hb'
  have hw : wro f = 1001 / 1000 * uro f := rfl
  rw [hw] at hb'
  push_cast at hb'
  simp only [thT_cast, Rat.cast_mul] at hb'
  have q0 : (0:ℝ) < q := by exact_mod_cast hq
  have ap := tanh_pos_real q0
  have htr := tanh_cf_trunc q0 (X := (X:ℝ)) (by
    have := (Rat.cast_le (K := ℝ)).2 h
    push_cast at this; rw [pow_two]; exact this) 34
  rw [← thE_cast, pow_two] at htr
  have htr' := htr.trans (mul_le_mul_of_nonneg_right ((Rat.cast_le (K := ℝ)).2 hE) ap.le)
  have u0 := uro_pos_real f
  have hu := (Rat.cast_le (K := ℝ)).2 (uro_ge63 hf)
  have hK' := (Rat.cast_le (K := ℝ)).2 hK
  have hE2 := (Rat.cast_le (K := ℝ)).2 hE'
  have hE0 := (Rat.cast_le (K := ℝ)).2 ((thE_nonneg (le_trans (by positivity) h) 34 1 le_rfl).trans hE)
  have c0' := (Rat.cast_le (K := ℝ)).2 c0
  push_cast at hu hK' hE2 hE0 c0'
  generalize ((uro f : ℚ) : ℝ) = u at *
  generalize ((q:ℝ) / thT ((q:ℝ) * q) 34 1) = Y at *
  generalize Real.tanh (q:ℝ) = A at *
  have ht := abs_le.1 htr'
  rw [show (a:ℝ) - A = (a - Y) + (Y - A) by ring]
  refine (abs_add_le _ _).trans ((add_le_add hb' htr').trans ?_)
  have hEA : (E:ℝ) * A ≤ 1 / 10 ^ 20 * A := mul_le_mul_of_nonneg_right hE2 ap.le
  have hY : Y ≤ (1 + 1 / 10 ^ 20) * A := by linarith
  have k0 : 0 ≤ ((c:ℝ) + 11 / 10 ^ 8 * (c * c) + 1) := by positivity
  have h1 : ((c:ℝ) + 11 / 10 ^ 8 * (c * c) + 1) * (1001 / 1000 * u) * Y ≤
      ((c:ℝ) + 11 / 10 ^ 8 * (c * c) + 1) * (1001 / 1000 * u) * ((1 + 1 / 10 ^ 20) * A) :=
    mul_le_mul_of_nonneg_left hY (by positivity)
  have h2 : (E:ℝ) ≤ E * 2 ^ 64 * u := by
    have := mul_le_mul_of_nonneg_left hu (mul_nonneg hE0 (by positivity : (0:ℝ) ≤ 2 ^ 64))
    rw [mul_assoc] at this
    norm_num at this ⊢
    linarith
  have h3 := mul_le_mul_of_nonneg_right hK' (mul_nonneg u0.le ap.le)
  have h4 := mul_le_mul_of_nonneg_right h2 ap.le
  generalize ((c:ℝ) + 11 / 10 ^ 8 * (c * c) + 1) = k at *
  have e1 : k * (1001 / 1000 * u) * ((1 + 1 / 10 ^ 20) * A) + (E * 2 ^ 64 * u) * A =
    (k * (1001 / 1000) * (1 + 1 / 10 ^ 20) + E * 2 ^ 64) * (u * A) := by ring
  calc _ ≤ k * (1001 / 1000 * u) * ((1 + 1 / 10 ^ 20) * A) + (E * 2 ^ 64 * u) * A := by
        convert add_le_add h1 h4 using 1
    _ ≤ _ := by rw [e1]; exact h3.trans_eq (mul_assoc _ _ _).symm

theorem tanh_of_pos {q : ℚ} {z : Bool} (hn : minNormal f ≤ q) : tanh (fin q z : FV f) = tanh_begin (fin q z) := by
  have h0 := minNormal_pos f
  unfold tanh tanh_check
  rw [if_neg (by simp), if_neg (by rw [limMin_gt_fabs, abs_of_pos (by linarith)]; linarith),
    if_neg (by rw [i_zero, fin_lt]; linarith)]

theorem tanh_neg_fin {q : ℚ} {z : Bool} (hn : minNormal f ≤ |q|) :
    tanh (fin q z : FV f) = -tanh (-(fin q z) : FV f) := by
  have := (C48_odd (fin q z : FV f)).1 (by rw [limMin_gt_fabs]; linarith)
  rw [this, neg_neg']

theorem tanh_acc_pos (hf : f.exact = false) {q X c E K : ℚ} {z : Bool} (hx : Rep f q) (h0 : minNormal f ≤ q) (h : q * q ≤ X)
    (hX : X ≤ 1000)
    (hC : ∀ d < 34, thC X (34 - (d + 1)) (d + 1 + 1) ≤ 80) (hE : thE X 34 1 ≤ E) (hE' : E ≤ 1 / 10 ^ 20)
    (hc : thC X 34 1 ≤ c) (hc' : c ≤ 80)
    (hK : (c + 11 / 10 ^ 8 * (c * c) + 1) * (1001 / 1000) * (1 + 1 / 10 ^ 20) + E * 2 ^ 64 ≤ K) (hK1 : 1 ≤ K) :
    ∃ a, Is (tanh (fin q z : FV f)) a ∧ |(a:ℝ) - Real.tanh q| ≤ K * uro f * Real.tanh q := by
  rw [tanh_of_pos h0]
  rcases le_total (1 / 2 ^ 40) q with c1 | c1
  · exact tanh_direct hf c1 h hX hC hE hE' hc hc' hK
  · have q0 := lt_of_lt_of_le (minNormal_pos f) h0
    refine ⟨q, tanh_tiny_id hf hx q0 c1, ?_⟩
    have q0' : (0:ℝ) < q := by exact_mod_cast q0
    have c1' := (Rat.cast_le (K := ℝ)).2 c1
    push_cast at c1'
    obtain ⟨h1, h2⟩ := self_le_tanh q0'
    have ap := tanh_pos_real q0'
    have hu := (Rat.cast_le (K := ℝ)).2 (uro_ge63 hf)
    have hK1' := (Rat.cast_le (K := ℝ)).2 hK1
    push_cast at hu hK1'
    have h3 : (q:ℝ) ^ 2 ≤ 1 / 2 ^ 64 := by
      have := mul_le_mul c1' c1' q0'.le (by norm_num)
      rw [pow_two]; exact this.trans (by norm_num)
    generalize ((uro f : ℚ) : ℝ) = u at *
    generalize Real.tanh (q:ℝ) = A at *
    rw [abs_of_nonneg (by linarith)]
    have h4 : (1:ℝ) * u ≤ K * u := mul_le_mul_of_nonneg_right hK1' (le_trans (by norm_num) hu)
    have h5 : (q:ℝ) ^ 2 / 3 ≤ K * u := by linarith [sq_nonneg (q:ℝ)]
    have := mul_le_mul_of_nonneg_right h5 ap.le
    linarith

theorem tanh_acc_all (hf : f.exact = false) {q X c E K : ℚ} {z : Bool} (hx : Valid (fin q z : FV f)) (h0 : minNormal f ≤ |q|)
    (h : q * q ≤ X) (hX : X ≤ 1000)
    (hC : ∀ d < 34, thC X (34 - (d + 1)) (d + 1 + 1) ≤ 80) (hE : thE X 34 1 ≤ E) (hE' : E ≤ 1 / 10 ^ 20)
    (hc : thC X 34 1 ≤ c) (hc' : c ≤ 80)
    (hK : (c + 11 / 10 ^ 8 * (c * c) + 1) * (1001 / 1000) * (1 + 1 / 10 ^ 20) + E * 2 ^ 64 ≤ K) (hK1 : 1 ≤ K) :
    ∃ r w, tanh (fin q z : FV f) = fin r w ∧ |(r:ℝ) - Real.tanh q| ≤ K * (1 / 2 ^ f.prec) * |Real.tanh q| := by
  have m0 := minNormal_pos f
  rw [← uro_eq]
  rcases le_or_gt 0 q with s | s
  · rw [abs_of_nonneg s] at h0
    obtain ⟨a, ⟨w, h1⟩, h2⟩ := tanh_acc_pos hf (z := z) hx.rep h0 h hX hC hE hE' hc hc' hK hK1
    have q0' : (0:ℝ) < q := by exact_mod_cast lt_of_lt_of_le m0 h0
    exact ⟨a, w, h1, by rw [abs_of_pos (tanh_pos_real q0')]; exact h2⟩
  · have e : (-(fin q z) : FV f) = fin (-q) z := by rw [neg_fin, if_neg s.ne]
    have h0' := h0
    rw [abs_of_neg s] at h0'
    obtain ⟨a, h1, h2⟩ := tanh_acc_pos hf (z := z) hx.rep.neg h0' (by linarith) hX hC hE hE' hc hc' hK hK1
    have q0' : (0:ℝ) < ((-q : ℚ):ℝ) := by exact_mod_cast lt_of_lt_of_le m0 h0'
    have ap := tanh_pos_real q0'
    rw [tanh_neg_fin h0, e]
    obtain ⟨w, h3⟩ := h1.neg
    refine ⟨-a, w, h3, ?_⟩
    push_cast at h2 ap ⊢
    rw [Real.tanh_neg] at h2 ap
    rw [abs_of_neg (show Real.tanh (q:ℝ) < 0 by linarith), ← abs_neg (-(a:ℝ) - _)]
    convert h2 using 2; ring

namespace Props

set_option maxRecDepth 10000 in
/-- C68: `tanh` has a relative error of at most three unit roundoffs for normal arguments in `[-1, 1]`. -/
theorem C68_unit (hf : f.exact = false) (q : ℚ) (z : Bool) (hx : Valid (fin q z : FV f)) (h0 : minNormal f ≤ |q|)
    (h : |q| ≤ 1) :
    ∃ r w, tanh (fin q z : FV f) = fin r w ∧ |(r:ℝ) - Real.tanh q| ≤ 3 * (1 / 2 ^ f.prec) * |Real.tanh q| := by
  have hq : q * q ≤ 1 := by
    rw [← abs_mul_abs_self q]
    exact mul_le_one₀ h (abs_nonneg _) h
  have h1 : ∀ d < 34, thC (1:ℚ) (34 - (d + 1)) (d + 1 + 1) ≤ 80 := by decide +kernel
  have h2 : thE (1:ℚ) 34 1 ≤ 1 / 10 ^ 100 := by decide +kernel
  have h3 : thC (1:ℚ) 34 1 ≤ 177 / 100 := by decide +kernel
  have := tanh_acc_all hf (K := 3) hx h0 hq (by norm_num) h1 h2 (by norm_num) h3 (by norm_num) (by norm_num) (by norm_num)
  simpa using this

set_option maxRecDepth 10000 in
/-- C68: `tanh` has a relative error of at most thirteen unit roundoffs for normal arguments in `[-22, 22]`. -/
theorem C68_accuracy (hf : f.exact = false) (q : ℚ) (z : Bool) (hx : Valid (fin q z : FV f)) (h0 : minNormal f ≤ |q|)
    (h : |q| ≤ 22) :
    ∃ r w, tanh (fin q z : FV f) = fin r w ∧ |(r:ℝ) - Real.tanh q| ≤ 13 * (1 / 2 ^ f.prec) * |Real.tanh q| := by
  have hq : q * q ≤ 484 := by
    rw [← abs_mul_abs_self q]
    nlinarith [abs_nonneg q]
  have h1 : ∀ d < 34, thC (484:ℚ) (34 - (d + 1)) (d + 1 + 1) ≤ 80 := by decide +kernel
  have h2 : thE (484:ℚ) 34 1 ≤ 7 / 10 ^ 22 := by decide +kernel
  have h3 : thC (484:ℚ) 34 1 ≤ 1188 / 100 := by decide +kernel
  have := tanh_acc_all hf (K := 13) hx h0 hq (by norm_num) h1 h2 (by norm_num) h3 (by norm_num) (by norm_num) (by norm_num)
  simpa using this

/-- C68: below `2^-40` the result is the argument itself. -/
theorem C68_tiny (hf : f.exact = false) (q : ℚ) (z : Bool) (hx : Valid (fin q z : FV f)) (h0 : minNormal f ≤ |q|)
    (h : |q| ≤ 1 / 2 ^ 40) : ∃ w, tanh (fin q z : FV f) = fin q w := by
  have m0 := minNormal_pos f
  rcases le_or_gt 0 q with s | s
  · rw [abs_of_nonneg s] at h0 h
    rw [tanh_of_pos h0]
    exact tanh_tiny_id hf hx.rep (by linarith) h
  · have e : (-(fin q z) : FV f) = fin (-q) z := by rw [neg_fin, if_neg s.ne]
    have h0' := h0
    rw [abs_of_neg s] at h0' h
    rw [tanh_neg_fin h0, e, tanh_of_pos h0']
    have := (tanh_tiny_id hf (z := z) hx.rep.neg (by linarith) h).neg
    rwa [neg_neg] at this

example : ∃ r w, tanh (fin (-1 / 2) false : FV binary64) = fin r w ∧
    |(r:ℝ) - Real.tanh ((-1 / 2 : ℚ) : ℝ)| ≤ 3 * (1 / 2 ^ 53) * |Real.tanh ((-1 / 2 : ℚ) : ℝ)| :=
  C68_unit (f := binary64) rfl (-1 / 2) false (by decide +kernel) (by decide +kernel) (by norm_num [abs_le])

example : ∃ r w, tanh (fin 20 false : FV x87) = fin r w ∧
    |(r:ℝ) - Real.tanh ((20 : ℚ) : ℝ)| ≤ 13 * (1 / 2 ^ 64) * |Real.tanh ((20 : ℚ) : ℝ)| :=
  C68_accuracy (f := x87) rfl 20 false (by decide +kernel) (by decide +kernel) (by norm_num)

example : ∃ w, tanh (fin (1 / 2 ^ 45) false : FV binary32) = fin (1 / 2 ^ 45) w :=
  C68_tiny (f := binary32) rfl _ false (by decide +kernel) (by decide +kernel) (by norm_num [abs_le])

end Props
end Gcem
