import Verif.Props.IbetaLentz

/-!
# The continued fraction of incomplete_beta: result of the loop
-/

namespace Gcem.Props
open Gcem FV IB
variable {f : Fmt}

theorem ib_fin {u F φ K E T δ r : ℝ} (hu : 0 < u) (hu7 : u ≤ 1 / 10 ^ 7) (hφ : 0 < φ) (hK1 : 1 ≤ K) (hK2 : K ≤ 44) (hT0 : 0 ≤ T) (hE0 : 0 ≤ E)
    (hr : |r - φ| ≤ T * u * φ) (hF : |F - φ| ≤ φ * (K * δ)) (hδ : δ ≤ 101 / 100 * (2 * E + 2) * u + 1003 / 1000 / 10 ^ 15)
    (hc : T + 11 / 10 * (K * (2 * E + 2)) ≤ 9400) : |r - F| ≤ (9500 * u + 5 / 10 ^ 14) * F := by
  have h1 : K * δ ≤ 101 / 100 * (K * (2 * E + 2)) * u + 44 * (1003 / 1000 / 10 ^ 15) := by
    have := mul_le_mul_of_nonneg_left hδ (show 0 ≤ K by linarith)
    have h2 : K * (1003 / 1000 / 10 ^ 15) ≤ 44 * (1003 / 1000 / 10 ^ 15) := mul_le_mul_of_nonneg_right hK2 (by norm_num)
    linarith
  set M := K * (2 * E + 2) with hM
  have hM0 : 0 ≤ M := by positivity
  have hM1 : M ≤ 8600 := by linarith
  have hMu : M * u ≤ 8600 * (1 / 10 ^ 7) := mul_le_mul hM1 hu7 hu.le (by norm_num)
  have h3 : K * δ ≤ 1 / 1000 := by norm_num at h1 hMu ⊢; linarith
  have h4 := abs_le.1 (hF.trans (mul_le_mul_of_nonneg_left h3 hφ.le))
  have h5 : φ ≤ 1002 / 1000 * F := by linarith [h4.1, h4.2]
  have hF0 : 0 < F := by linarith
  have h6 : |r - F| ≤ φ * (T * u + K * δ) := by
    have := abs_sub_le r φ F
    rw [abs_sub_comm φ F] at this
    linarith
  have h7 : T * u + K * δ ≤ 9400 * u + 44 * (1003 / 1000 / 10 ^ 15) := by
    have := mul_le_mul_of_nonneg_right hc hu.le
    have : 0 ≤ M * u := by positivity
    linarith
  refine h6.trans ?_
  have h8 : φ * (T * u + K * δ) ≤ φ * (9400 * u + 44 * (1003 / 1000 / 10 ^ 15)) := mul_le_mul_of_nonneg_left h7 hφ.le
  refine h8.trans ?_
  have h9 : φ * (9400 * u + 44 * (1003 / 1000 / 10 ^ 15)) ≤ 1002 / 1000 * F * (9400 * u + 44 * (1003 / 1000 / 10 ^ 15)) :=
    mul_le_mul_of_nonneg_right h5 (by positivity)
  refine h9.trans ?_
  have : 0 < F * u := by positivity
  norm_num at *
  linarith

theorem ib_delta {u c t E x y s w : ℝ} (hu : 0 < u) (hu7 : u ≤ 1 / 10 ^ 7) (hc : 0 < c) (ht : 0 < t) (hE0 : 0 ≤ E) (hE : E ≤ 1000)
    (hx : |x - c| ≤ E * u * c) (hy : |y * t - 1| ≤ E * u) (hs : |s - x * y| ≤ u * |x * y|) (hw : |w - (s - 1)| ≤ u * |s - 1|)
    (h : |w| ≤ 1001 / 1000 / 10 ^ 15) : |t - c| / c ≤ 101 / 100 * (2 * E + 2) * u + 1003 / 1000 / 10 ^ 15 := by
  have hEu : E * u ≤ 1 / 10000 := (mul_le_mul hE hu7 hu.le (by norm_num)).trans (by norm_num)
  obtain ⟨p, rfl⟩ : ∃ p, x = c * (1 + p) := ⟨x / c - 1, by field_simp; ring⟩
  obtain ⟨q, rfl⟩ : ∃ q, y = (1 + q) / t := ⟨y * t - 1, by field_simp; ring⟩
  have hp : |p| ≤ E * u := by
    rw [show c * (1 + p) - c = p * c by ring, abs_mul, abs_of_pos hc] at hx
    exact le_of_mul_le_mul_right hx hc
  have hq : |q| ≤ E * u := by
    rw [show (1 + q) / t * t - 1 = q by field_simp; ring] at hy
    exact hy
  have hs1 : |s - 1| ≤ 10011 / 10000 / 10 ^ 15 := by
    have h1 := abs_sub_le (s - 1) w 0
    rw [sub_zero, sub_zero, abs_sub_comm (s - 1) w] at h1
    have h2 : u * |s - 1| ≤ 1 / 10 ^ 7 * |s - 1| := mul_le_mul_of_nonneg_right hu7 (abs_nonneg _)
    norm_num only at h h2 ⊢
    linarith
  set m := c * (1 + p) * ((1 + q) / t) with hm
  have hm1 : |m - 1| ≤ 10012 / 10000 / 10 ^ 15 + 1001 / 1000 * u := by
    have h1 := abs_sub_le m s 1
    rw [abs_sub_comm m s] at h1
    have h2 := abs_add_le (m - 1) 1
    rw [sub_add_cancel, abs_one] at h2
    have h3 : u * |m - 1| ≤ 1 / 10 ^ 7 * |m - 1| := mul_le_mul_of_nonneg_right hu7 (abs_nonneg _)
    have h4 := mul_le_mul_of_nonneg_left h2 hu.le
    norm_num only at hs1 h3 ⊢
    linarith
  have hpb := abs_le.1 (hp.trans hEu)
  have hqb := abs_le.1 (hq.trans hEu)
  have hmb : 999 / 1000 ≤ m := by
    have := (abs_le.1 hm1).1
    norm_num at hu7 this ⊢
    linarith
  have hm0 : 0 < m := by linarith
  have e1 : (t - c) / c = ((1 + p) * (1 + q) - m) / m := by
    have : m * t = c * ((1 + p) * (1 + q)) := by rw [hm]; field_simp
    rw [div_eq_div_iff hc.ne' hm0.ne']
    linarith
  have e2 : |t - c| / c = |(1 + p) * (1 + q) - m| / m := by
    have := congrArg abs e1
    rwa [abs_div, abs_of_pos hc, abs_div, abs_of_pos hm0] at this
  rw [e2, div_le_iff₀ hm0]
  have e3 : |(1 + p) * (1 + q) - m| ≤ |p| + |q| + |p| * |q| + |m - 1| := by
    rw [← abs_mul, abs_sub_comm m 1, show (1 + p) * (1 + q) - m = p + q + p * q + (1 - m) by ring]
    exact (abs_add_le _ _).trans (by linarith [abs_add_three p q (p * q)])
  have e4 : |p| * |q| ≤ 1 / 10000 * (E * u) := mul_le_mul (hp.trans hEu) hq (abs_nonneg _) (by norm_num)
  have e5 : (101 / 100 * (2 * E + 2) * u + 1003 / 1000 / 10 ^ 15) * (999 / 1000) ≤ (101 / 100 * (2 * E + 2) * u + 1003 / 1000 / 10 ^ 15) * m :=
    mul_le_mul_of_nonneg_left hmb (by positivity)
  refine le_trans ?_ e5
  have : 0 ≤ E * u := by positivity
  norm_num at *
  linarith

theorem ib_result {a b z F c t φ : ℝ} {k j L E T R j' : ℕ} {cq dq fq : ℚ} (st : IbSt a b z F (uro f) j' L E T R c t φ cq dq fq)
    (chk : ibCheck k j L E T = true) (hK : |F - φ| ≤ φ * ((ibK k j L : ℝ) * (|t - c| / c)))
    (hδ : |t - c| / c ≤ 101 / 100 * (2 * (E / 64) + 2) * uro f + 1003 / 1000 / 10 ^ 15) :
    |(fq:ℝ) - F| ≤ (9500 * uro f + 5 / 10 ^ 14) * F := by
  obtain ⟨q1, q2, q3, q4, q5, q6⟩ := ibCheck_iff chk
  have hφ0 : 0 < φ := lt_of_lt_of_le (by norm_num) st.p0
  have hK1 : 1 ≤ ibK k j L := le_max_left _ _
  have hH := ibH_nonneg k (j + 1)
  have hK2 : ibK k j L ≤ 44 := by
    refine max_le (by norm_num) ?_
    have hL : (0:ℚ) < (L:ℚ) / 65536 := by
      have : (0:ℚ) < L := by exact_mod_cast (by omega : 0 < L)
      positivity
    have : 0 < (L:ℚ) / 65536 - ibH k (j + 1) := by
      rcases hH.eq_or_lt with h0 | h0
      · rw [← h0]; linarith
      · linarith
    rw [div_le_iff₀ this]
    exact q5
  have q6' := (Rat.cast_le (K := ℝ)).2 q6
  push_cast at q6'
  exact ib_fin (uro_pos_real f) (uro7_real f) hφ0 (by exact_mod_cast hK1) (by exact_mod_cast hK2) (by positivity) (by positivity) st.ef hK hδ
    (by rw [← mul_div_assoc 2 (E:ℝ) 64]; exact q6')

theorem ib_stopped {a b z F c t φ : ℝ} {L E T R j' : ℕ} {cq dq fq : ℚ} {x y : FV f} (st : IbSt a b z F (uro f) j' L E T R c t φ cq dq fq)
    (uc : c ≤ 25) (ut : t ≤ 25) (ix : Is x cq) (iy : Is y dq)
    (hlt : FV.cast f.ldbl (fabs (x * y - i 1)) < (d INCML_BETA_TOL : FV f.ldbl)) :
    |t - c| / c ≤ 101 / 100 * (2 * (E / 64) + 2) * uro f + 1003 / 1000 / 10 ^ 15 := by
  have hu := uro_pos_real f
  have hu7 := uro7_real f
  have hL5 : (5462:ℝ) ≤ L := by exact_mod_cast st.L5
  have l1 : 1 / 12 ≤ c := by linarith [st.lc]
  have l2 : 1 / 12 ≤ t := by linarith [st.lt]
  have hE0 : (0:ℝ) ≤ (E:ℝ) / 64 := by positivity
  have hE1 : (E:ℝ) / 64 ≤ 1000 := by
    have : (E:ℝ) ≤ 64000 := by exact_mod_cast st.E6
    linarith
  have hEu : (E:ℝ) / 64 * uro f ≤ 1 / 10000 := (mul_le_mul hE1 hu7 hu.le (by norm_num)).trans (by norm_num)
  have c1 := abs_le.1 (st.ec.trans (mul_le_mul_of_nonneg_right hEu (by linarith)))
  have d1 := abs_le.1 (st.ed.trans hEu)
  have cu : (cq:ℝ) ≤ 26 := by linarith
  have cl : (1:ℝ) / 13 ≤ cq := by linarith
  have dl : 0 ≤ (dq:ℝ) := by
    by_contra hcon; push Not at hcon
    nlinarith
  have du : (dq:ℝ) ≤ 13 := by
    by_contra hcon; push Not at hcon
    nlinarith
  have hp0 : (0:ℝ) ≤ cq * dq := by positivity
  have pu : (cq:ℝ) * dq ≤ 26 * 13 := mul_le_mul cu du dl (by norm_num)
  have ov : |cq * dq| ≤ 2 ^ 20 := rat_abs_le (by
    push_cast; rw [abs_of_nonneg hp0]; exact pu.trans (by norm_num))
  have hw := ib_stop ix iy ov hlt
  have e2 := rnd_add_real (rep_rnd f (cq * dq)) (rep_one' (f := f)).neg
  rw [← sub_eq_add_neg, Rat.cast_neg, ← sub_eq_add_neg, Rat.cast_one] at e2
  have dl' : 1 / 2 ^ 10 ≤ (cq:ℝ) * dq := by
    have ht : t * cq * dq ≥ 1 / 13 * (9 / 10) := by
      have : (1:ℝ) / 13 * (9 / 10) ≤ cq * (dq * t) := mul_le_mul cl (by linarith) (by norm_num) (by linarith)
      linarith
    by_contra hcon; push Not at hcon
    nlinarith
  have e1 := rnd_rel_real (f := f) (q := cq * dq) (rat_le_abs (by
    push_cast; rw [abs_of_nonneg hp0]; exact le_trans (by norm_num) dl'))
  push_cast at e1
  exact ib_delta hu hu7 (by linarith) (by linarith) hE0 hE1 st.ec st.ed e1 e2 hw

/-- the result of the loop -/
theorem ib_loop {a b z : ℚ} {wa wb wz : Bool} {F : ℝ} {k : ℕ}
    (hb : Valid (fin b wb : FV f)) (h : IbCell a b z k) (hz1 : (z:ℝ) < 1) (hz0 : 1 / 2 ^ 100 ≤ z) (hF1 : 1 ≤ F) (hF2 : F ≤ 2 ^ 40) :
    ∀ (left L E T R : ℕ) (c t φ : ℝ) (cq dq fq : ℚ) (x y w : FV f), left ≤ 204 → Is x cq → Is y dq → Is w fq →
      IbSt a b z F (uro f) (205 - left) L E T R c t φ cq dq fq →
      (205 - left = 1 → ((k:ℝ) + 4) / (k + 8) ≤ 1 + al a b z 1 / c ∧ ((k:ℝ) + 4) / (k + 8) ≤ 1 + al a b z 1 / t) →
      ibLoop k left L E T R = true →
      ∃ v : ℚ, Is (incomplete_beta_cf (fin a wa : FV f) (fin b wb) (fin z wz) left x y w) v ∧ |(v:ℝ) - F| ≤ (9500 * uro f + 5 / 10 ^ 14) * F := by
  have hu := uro_pos_real f
  intro left
  induction left with
  | zero =>
    intro L E T R c t φ cq dq fq x y w hl ix iy iw st h1 hloop
    unfold ibLoop at hloop
    simp only [ibForce_eq, Bool.and_eq_true, decide_eq_true_eq] at hloop
    obtain ⟨chk, hR⟩ := hloop
    obtain ⟨cq', dq', fq', c', t', φ', ic, id, iF, st', uc, ut, hK⟩ := ib_step (wa := wa) (wz := wz) hb h hz1 hz0 (by omega) (by omega) hF1 hF2 ix iy iw st h1 rfl rfl rfl rfl chk
    refine ⟨fq', ?_, ib_result st' chk hK ?_⟩
    · unfold incomplete_beta_cf
      simp only [show INCML_BETA_MAX_ITER - 0 = 205 - 0 from rfl, ite_self]
      exact iF
    · have hL5 : (5462:ℝ) ≤ _ := Nat.cast_le.2 st'.L5
      have l1 : 1 / 12 ≤ c' := by linarith [st'.lc]
      have l2 : 1 / 12 ≤ t' := by linarith [st'.lt]
      have hr := st'.r
      have hR' : ((_ : ℕ):ℝ) ≤ ((2 ^ 100 : ℕ):ℝ) := Nat.cast_le.2 hR
      have h2 : |c' - t'| ≤ 1 / 2 ^ 70 * 25 := by
        refine hr.trans (mul_le_mul ?_ ut (by linarith) (by norm_num))
        rw [div_le_iff₀ (by norm_num)]
        refine hR'.trans ?_
        norm_num
      rw [abs_sub_comm] at h2
      have h3 : |t' - c'| / c' ≤ 1 / 10 ^ 15 := by
        rw [div_le_iff₀ (by linarith)]
        norm_num at h2 ⊢
        linarith
      refine h3.trans ?_
      refine le_trans ?_ (le_add_of_nonneg_left (by positivity))
      norm_num
  | succ left ih =>
    intro L E T R c t φ cq dq fq x y w hl ix iy iw st h1 hloop
    unfold ibLoop at hloop
    simp only [ibForce_eq, Bool.and_eq_true] at hloop
    obtain ⟨chk, hR⟩ := hloop
    obtain ⟨cq', dq', fq', c', t', φ', ic, id, iF, st', uc, ut, hK⟩ := ib_step (wa := wa) (wz := wz) hb h hz1 hz0 (by omega) (by omega) hF1 hF2 ix iy iw st h1 rfl rfl rfl rfl chk
    unfold incomplete_beta_cf
    simp only [show INCML_BETA_MAX_ITER - (left + 1) = 205 - (left + 1) from rfl]
    split_ifs with hs
    · exact ⟨fq', iF, ib_result st' chk hK (ib_stopped st' uc ut ic id hs)⟩
    · rw [show 205 - (left + 1) + 1 = 205 - left by omega] at st'
      exact ih _ _ _ _ _ _ _ _ _ _ _ _ _ (by omega) ic id iF st' (by omega) hR

/-! ### the first step -/

theorem ib_init : ∀ c < 40, 5462 ≤ ibL0 c ∧ ibE0 c ≤ 64000 := by decide +kernel

theorem ib_limit_bounds {a b z : ℝ} {k : ℕ} (h : IbCell a b z k) (hz1 : z < 1) : 1 ≤ 1 / W a b z 0 ∧ 1 / W a b z 0 ≤ 2 ^ 40 := by
  have ha : 0 < a := by linarith [h.ca]
  have hz0 := h.z0
  have hW := W_pos (b := b) ha h.z0 hz1
  constructor
  · rw [le_div_iff₀ (hW 0), one_mul, W_rec ha h.z0 hz1 0]
    have := div_nonpos_of_nonpos_of_nonneg h.start.2 (hW (0 + 1)).le
    linarith
  · have e := W_zero (b := b) ha h.z0 hz1
    have h1z : 1 / 9 ≤ 1 - z := by
      have h3 := h.zs
      have h4 : (k:ℝ) ≤ 39 := by exact_mod_cast (by have := h.c40; omega : k ≤ 39)
      have h5 := h.wpos.2
      have h6 := h.a1
      have h7 := h.b0
      have h8 := h.b1
      by_contra hcon
      push Not at hcon
      nlinarith
    have h1z0 : 0 < 1 - z := by linarith
    have le : ∫ t in (0:ℝ)..z, t ^ (a - 1) * (1 - t) ^ (b - 1) ≤ ∫ t in (0:ℝ)..z, t ^ (a - 1) * (1 - z)⁻¹ := by
      refine intervalIntegral.integral_mono_on_of_le_Ioo hz0.le ?_ ?_ ?_
      · have := jint hz0.le hz1 0 (x := a - 1) (by linarith) (b - 1)
        simpa [mul_comm] using this
      · exact (intervalIntegral.intervalIntegrable_rpow' (by linarith)).mul_const _
      · intro t ht
        refine mul_le_mul_of_nonneg_left ?_ (Real.rpow_nonneg ht.1.le _)
        have h1t : 0 < 1 - t := by linarith [ht.2]
        rw [Real.rpow_sub_one h1t.ne']
        have : (1 - t) ^ b ≤ 1 := Real.rpow_le_one h1t.le (by linarith [ht.1]) (by linarith [h.b0])
        rw [div_le_iff₀ h1t]
        refine this.trans ?_
        rw [inv_mul_eq_div, one_le_div h1z0]
        linarith [ht.2]
    rw [e, intervalIntegral.integral_mul_const, integral_rpow (Or.inl (by linarith)), sub_add_cancel, Real.zero_rpow ha.ne', sub_zero] at le
    have hza : 0 < z ^ a := Real.rpow_pos_of_pos hz0 a
    have hb9 : (1 / 9 : ℝ) ^ (10:ℕ) ≤ (1 - z) ^ b := by
      calc (1 / 9 : ℝ) ^ (10:ℕ) ≤ (1 - z) ^ (10:ℕ) := by gcongr
        _ = (1 - z) ^ (10:ℝ) := by norm_cast
        _ ≤ (1 - z) ^ b := Real.rpow_le_rpow_of_exponent_ge h1z0 (by linarith) h.b1
    have le2 : (1 - z) ^ b * (1 / W a b z 0) ≤ (1 - z)⁻¹ := by
      have : z ^ a / a * ((1 - z) ^ b * (1 / W a b z 0)) ≤ z ^ a / a * (1 - z)⁻¹ := by
        refine le_trans (le_of_eq ?_) le
        ring
      exact le_of_mul_le_mul_left this (by positivity)
    have h9 : (1 - z)⁻¹ ≤ 9 := by
      rw [inv_le_comm₀ h1z0 (by norm_num)]; linarith
    have hF : 0 ≤ 1 / W a b z 0 := by have := hW 0; positivity
    have := mul_le_mul_of_nonneg_right hb9 hF
    norm_num at this ⊢
    norm_num at le2
    linarith

theorem ib_start {a b z : ℚ} {wa wb wz : Bool} {k : ℕ} (hb : Valid (fin b wb : FV f)) (h : IbCell a b z k) (hz1 : (z:ℝ) < 1) (hz0 : 1 / 2 ^ 100 ≤ z) :
    ∃ dq : ℚ, Is (incomplete_beta_d_update (fin a wa : FV f) (fin b wb) (fin z wz) (i 1) 0) dq ∧
      IbSt a b z (1 / W a b z 0) (uro f) 1 (ibL0 k) (ibE0 k) (ibE0 k) (ibR0 k) 1 (1 + al a b z 0) (1 / (1 + al a b z 0)) 1 dq dq := by
  obtain ⟨hL, hE⟩ := ib_init k h.c40
  obtain ⟨s1, s2⟩ := h.start
  have hu := uro_pos_real f
  have ha : (0:ℝ) < a := by linarith [h.ca]
  have hW := W_pos (b := b) ha h.z0 hz1
  have hWr := W_rec (b := b) ha h.z0 hz1
  have ha1 : 1 / 2 ≤ a := by
    have := h.ca
    have h2 : ((1 / 2 : ℚ):ℝ) ≤ (a:ℝ) := by push_cast; exact this
    exact_mod_cast h2
  have ha2 : a ≤ 16 := by
    have h3 := h.a1
    have h4 : (k:ℝ) ≤ 40 := by exact_mod_cast h.c40.le
    have h5 := h.wpos.2
    have h2 : (a:ℝ) ≤ ((16:ℚ):ℝ) := by push_cast; linarith
    exact_mod_cast h2
  have hb1 : 1 / 2 ≤ b := by
    have := h.b0
    have h2 : ((1 / 2 : ℚ):ℝ) ≤ (b:ℝ) := by push_cast; exact this
    exact_mod_cast h2
  have hb2 : b ≤ 16 := by
    have := h.b1
    have h2 : (b:ℝ) ≤ ((16:ℚ):ℝ) := by push_cast; linarith
    exact_mod_cast h2
  obtain ⟨α', iα, hα⟩ := ib_coef (f := f) (wa := wa) (wz := wz) hb ha1 ha2 hb1 hb2 hz0 (by exact_mod_cast hz1.le) (j := 0) (by omega)
  have lt : ((ibL0 k : ℕ):ℝ) / 65536 ≤ 1 + al a b z 0 := by
    have hv : ((ibL0 k : ℕ) : ℚ) ≤ ((8:ℚ) / (k + ibW k + 48) - 1 / 100000) * 65536 := (Nat.le_floor_iff' (by omega)).1 (le_refl (ibL0 k))
    have hv' := (Rat.cast_le (K := ℝ)).2 hv
    push_cast at hv'
    rw [div_le_iff₀ (by norm_num)]
    exact hv'.trans (mul_le_mul_of_nonneg_right s1 (by norm_num))
  have hL' : (5462:ℝ) ≤ (ibL0 k : ℕ) := by exact_mod_cast hL
  set l : ℝ := ((ibL0 k : ℕ):ℝ) / 65536 with hl
  have l12 : 1 / 12 ≤ l := by rw [hl]; linarith
  have hl0 : 0 < l := by linarith
  set t : ℝ := 1 + al a b z 0 with ht
  have ht0 : 0 < t := by linarith
  have hl1 : l ≤ 1 := by linarith
  have hA0 : 0 ≤ 1 / l - 1 := by
    have : 1 ≤ 1 / l := by rw [le_div_iff₀ hl0]; linarith
    linarith
  have hA : |al a b z 0| / 1 ≤ (1 / l - 1) * t := by
    rw [div_one, abs_of_nonpos s2]
    have : 1 ≤ 1 / l * t := by rw [one_div, inv_mul_eq_div, one_le_div hl0]; exact lt
    linarith
  have hEge : 101 / 100 * (1 / l - 1) * (113 / 10) + 24 / 10 ≤ ((ibE0 k : ℕ):ℝ) / 64 := by
    have := (Rat.cast_le (K := ℝ)).2 (Nat.le_ceil ((101 / 100 * (1 / ((ibL0 k : ℕ) / 65536 : ℚ) - 1) * (113 / 10) + 24 / 10) * 64))
    push_cast at this
    rw [le_div_iff₀ (by norm_num)]
    unfold ibE0
    exact this
  have hE1 : ((ibE0 k : ℕ):ℝ) / 64 ≤ 1000 := by
    have : ((ibE0 k : ℕ):ℝ) ≤ 64000 := by exact_mod_cast hE
    linarith
  obtain ⟨dq, id, ed⟩ := ib_d (f := f) (E := 0) (t := 1) (t' := t) (dq := 1) iα is_one (by norm_num) (by linarith) (by linarith) (by rw [ht, div_one])
    (by rw [abs_of_nonpos s2]; linarith) hA0 hA hα le_rfl (by norm_num) (by norm_num) (by linarith)
  have ed' : |(dq:ℝ) * t - 1| ≤ ((ibE0 k : ℕ):ℝ) / 64 * uro f := by
    refine ed.trans (mul_le_mul_of_nonneg_right ?_ hu.le)
    linarith
  have ht1 : 1 ≤ 1 / t := by rw [le_div_iff₀ ht0]; linarith
  have ht2 : 1 / t ≤ 12 := by rw [div_le_iff₀ ht0]; linarith
  refine ⟨dq, id, ⟨hL, hE, by omega, by linarith, lt, ?_, ed', ?_, ?_, ?_, ?_, ?_⟩⟩
  · push_cast; rw [sub_self, abs_zero]; positivity
  · have : (dq:ℝ) - 1 / t = (dq * t - 1) * (1 / t) := by field_simp
    rw [this, abs_mul, abs_of_pos (show 0 < 1 / t by positivity)]
    exact mul_le_mul_of_nonneg_right ed' (by positivity)
  · rw [abs_of_nonneg (by linarith), div_mul_eq_mul_div, le_div_iff₀ (by norm_num)]
    have := (Rat.cast_le (K := ℝ)).2 (Nat.le_ceil ((1 / ((ibL0 k : ℕ) / 65536 : ℚ) - 1) * 2 ^ 170))
    push_cast at this
    have h2 := mul_le_mul_of_nonneg_right this ht0.le
    have h3 : 1 ≤ 1 / l * t := by rw [one_div, inv_mul_eq_div, one_le_div hl0]; exact lt
    refine le_trans ?_ h2
    have h4 : (1 - t) * 2 ^ 170 ≤ (1 / l * t - t) * 2 ^ 170 := mul_le_mul_of_nonneg_right (by linarith) (by positivity)
    refine h4.trans (le_of_eq ?_)
    ring
  · exact le_trans (by norm_num) ht1
  · exact ht2.trans (by norm_num)
  · have h0 := hWr 0
    have h00 := (hW 0).ne'
    have h1 := (hW 1).ne'
    rw [zero_add] at h0
    have e1 : t + (W a b z 1 - 1) = W a b z 0 * W a b z 1 := by
      rw [h0, ht]; field_simp; ring
    rw [e1]
    field_simp
    ring

/-- **The continued fraction**: the value computed by the loop, relative to the exact limit. -/
theorem ib_cf {a b z : ℚ} {wa wb wz : Bool} (hb : Valid (fin b wb : FV f)) (a1 : 1 / 2 ≤ a) (a2 : a ≤ 10) (b1 : 1 / 2 ≤ b) (b2 : b ≤ 10)
    (z1 : 1 / 2 ^ 100 ≤ z) (z2 : z < 1) (hz : z * (a + b + 2) ≤ 100001 / 100000 * (a + 1)) :
    ∃ v : ℚ, Is (incomplete_beta_cf (fin a wa : FV f) (fin b wb) (fin z wz) (INCML_BETA_MAX_ITER - 1) (i 1)
        (incomplete_beta_d_update (fin a wa) (fin b wb) (fin z wz) (i 1) 0) (incomplete_beta_d_update (fin a wa) (fin b wb) (fin z wz) (i 1) 0)) v ∧
      |(v:ℝ) - 1 / W a b z 0| ≤ (9500 * uro f + 5 / 10 ^ 14) * (1 / W a b z 0) := by
  obtain ⟨k, k2, k40, kp, ka, kb⟩ : ∃ k : ℕ, 2 ≤ k ∧ k < 40 ∧ (k < 6 ∨ k % 2 = 0) ∧ (k:ℝ) / 4 ≤ a ∧ (a:ℝ) ≤ (k + ibW k) / 4 := by
    have n0 : (⌊4 * a⌋₊ : ℚ) ≤ 4 * a := Nat.floor_le (by linarith)
    have n1 : 4 * a < (⌊4 * a⌋₊ : ℚ) + 1 := Nat.lt_floor_add_one _
    have n2 : 2 ≤ ⌊4 * a⌋₊ := Nat.le_floor (by push_cast; linarith)
    have n3 : ⌊4 * a⌋₊ ≤ 40 := by
      have : (⌊4 * a⌋₊ : ℚ) ≤ 40 := by linarith
      exact_mod_cast this
    have a2' : (a:ℝ) ≤ 10 := by exact_mod_cast a2
    have n0' : ((⌊4 * a⌋₊ : ℕ) : ℝ) ≤ 4 * a := by
      have := (Rat.cast_le (K := ℝ)).2 n0
      push_cast at this
      exact this
    have n1' : 4 * (a:ℝ) < ((⌊4 * a⌋₊ : ℕ) : ℝ) + 1 := by
      have := (Rat.cast_lt (K := ℝ)).2 n1
      push_cast at this
      exact this
    generalize ⌊4 * a⌋₊ = n at *
    rcases Nat.lt_or_ge n 6 with h6 | h6
    · refine ⟨n, n2, by omega, Or.inl h6, by linarith, ?_⟩
      unfold ibW; rw [if_pos h6]; push_cast; linarith
    · rcases Nat.lt_or_ge n 40 with h40 | h40
      · refine ⟨n - n % 2, by omega, by omega, Or.inr (by omega), ?_, ?_⟩
        · have : ((n - n % 2 : ℕ):ℝ) ≤ n := by exact_mod_cast Nat.sub_le _ _
          linarith
        · unfold ibW; rw [if_neg (by omega)]
          have : (n:ℝ) ≤ ((n - n % 2 : ℕ):ℝ) + 1 := by exact_mod_cast (by omega : n ≤ n - n % 2 + 1)
          push_cast
          generalize ((n - n % 2 : ℕ):ℝ) = y at *
          linarith
      · have : (40:ℝ) ≤ n := by exact_mod_cast h40
        refine ⟨38, by norm_num, by norm_num, by norm_num, by push_cast; linarith, ?_⟩
        unfold ibW; rw [if_neg (by norm_num)]; push_cast; linarith
  have z0' : (0:ℝ) < z := by exact_mod_cast (lt_of_lt_of_le (by norm_num) z1)
  have hz' : (z:ℝ) * (a + b + 2) ≤ 100001 / 100000 * (a + 1) := by
    have := (Rat.cast_le (K := ℝ)).2 hz
    push_cast at this
    exact this
  have hz1' : (z:ℝ) < 1 := by exact_mod_cast z2
  have cell : IbCell (a:ℝ) b z k := ⟨k2, k40, ka, kb, by
      have h2 : ((1 / 2 : ℚ):ℝ) ≤ (b:ℝ) := by exact_mod_cast b1
      push_cast at h2; exact h2, by exact_mod_cast b2, z0', hz1', hz'⟩
  obtain ⟨f1, f2⟩ := ib_limit_bounds cell hz1'
  obtain ⟨dq, id, st⟩ := ib_start (wa := wa) (wz := wz) hb cell hz1' z1
  have hall := ib_all k k40 k2 kp
  unfold ibAll at hall
  simp only [ibForce_eq] at hall
  obtain ⟨g1, g2⟩ := cell.first
  exact ib_loop hb cell hz1' z1 f1 f2 204 _ _ _ _ _ _ _ _ _ _ _ _ _ le_rfl is_one id id st (fun _ => ⟨g2, g1⟩) hall

end Gcem.Props
