import Verif.Props.IbetaTop
import Verif.Props.IgammaInvTop

/-! # C93: `incomplete_beta_inv(1, 1, p)`, the quantile of the uniform distribution -/

namespace Gcem.Props
open FV

variable {f : Fmt}

/-- the constants of the start value for `a = b = 1` -/
theorem bi_s (hf : f.exact = false) : ∃ S W : ℚ, incomplete_beta_inv_initial_val_2_s1 (i 1 : FV f) (i 1) = .ok (fin S false) ∧
    incomplete_beta_inv_initial_val_2_s2 (i 1 : FV f) (i 1) = .ok (fin S false) ∧
    (fin S false + fin S false : FV f) = fin W false ∧ (fin S false / fin W false : FV f) = fin (1 / 2) false ∧
    1 ≤ W ∧ W ≤ 1 + 1 / 10 ^ 6 := by
  rcases f with ⟨⟨⟩, ⟨⟩⟩
  · exact ⟨1/2, 1, by decide +kernel, by decide +kernel, by decide +kernel, by decide +kernel, by norm_num, by norm_num⟩
  · cases hf
  · exact ⟨4503599627370497/9007199254740992, 4503599627370497/4503599627370496, by decide +kernel, by decide +kernel, by decide +kernel,
      by decide +kernel, by norm_num, by norm_num⟩
  · cases hf
  · exact ⟨1/2, 1, by decide +kernel, by decide +kernel, by decide +kernel, by decide +kernel, by norm_num, by norm_num⟩
  · cases hf

/-- `lbeta(1, 1)` and the density computed from it -/
theorem bi_lb (hf : f.exact = false) : ∃ (B : FV f) (D : ℚ), lbeta (i 1 : FV f) (i 1) = .ok B ∧
    (∀ z, exp ((fin 0 z : FV f) - B) = .ok (fin D false)) ∧ 1 ≤ D ∧ D ≤ 1 + 4 * uro f := by
  rcases f with ⟨⟨⟩, ⟨⟩⟩
  · exact ⟨fin (-1/4194304) false, 4194305/4194304, by decide +kernel, by rintro (_|_) <;> decide +kernel, by norm_num, by decide +kernel⟩
  · cases hf
  · exact ⟨fin 0 false, 1, by decide +kernel, by rintro (_|_) <;> decide +kernel, by norm_num, by decide +kernel⟩
  · cases hf
  · exact ⟨fin 0 false, 1, by decide +kernel, by rintro (_|_) <;> decide +kernel, by norm_num, by decide +kernel⟩
  · cases hf

theorem bi_pow (hf : f.exact = false) {q : ℚ} {z w : Bool} (hq : Valid (fin q z : FV f)) (q0 : 12 / 100 ≤ q) (q1 : q ≤ 6 / 10) :
    ∃ r, pow (fin q z : FV f) (fin 1 w) = .ok (fin r false) ∧ |(r:ℝ) - q| ≤ 1 / 1000 := by
  have u0 := uro_pos_real f
  have u1 := uro7_real f
  have m1 : (86:ℝ) ≤ expMin f.ty := by exact_mod_cast expMin_ge f.ty
  have q0r : (12 / 100 : ℝ) ≤ q := by have := (Rat.cast_le (K := ℝ)).2 q0; push_cast at this; exact this
  have q1r : (q:ℝ) ≤ 6 / 10 := by have := (Rat.cast_le (K := ℝ)).2 q1; push_cast at this; exact this
  have lq : |Real.log q| ≤ 8 := by
    have h1 := Real.log_le_sub_one_of_pos (show (0:ℝ) < q by linarith)
    have h2 := Real.one_sub_inv_le_log_of_pos (show (0:ℝ) < q by linarith)
    have h3 : (q:ℝ)⁻¹ ≤ 9 := by rw [inv_le_comm₀ (by linarith) (by norm_num)]; linarith
    exact abs_le.2 ⟨by linarith, by linarith⟩
  rcases lt_or_ge q (1 / 2) with h | h
  · obtain ⟨r, e2, r0, br⟩ := C65_small_base hf q 1 z w hq ((minNormal_le' f).trans (le_trans (by norm_num) q0)) h
      (fun e => ib_not_ten (by linarith) h e) (by rw [Rat.cast_one, one_mul]; linarith)
    refine ⟨r, e2, ?_⟩
    rw [Rat.cast_one, one_mul, Real.rpow_one, ← uro_eq] at br
    have br' : |(r:ℝ) - q| ≤ ((105 + 67 * 8) * (1 / 10 ^ 7) + (8 + 8) * (1 / 2 ^ 62)) * (6 / 10) := by
      refine br.trans ?_
      gcongr
    norm_num at br' ⊢
    linarith
  · obtain ⟨r, e2, r0, br⟩ := C65_accuracy hf q 1 z w hq h (by rw [Rat.cast_one, one_mul]; linarith)
    refine ⟨r, e2, ?_⟩
    rw [Rat.cast_one, one_mul, Real.rpow_one, ← uro_eq] at br
    have br' : |(r:ℝ) - q| ≤ ((105 + 46 * 8) * (1 / 10 ^ 7) + (8 + 8) * (1 / 2 ^ 62)) * (6 / 10) := by
      refine br.trans ?_
      gcongr
    norm_num at br' ⊢
    linarith

/-- start value for an argument up to `1/2` -/
theorem bi_init (hf : f.exact = false) {q S W : ℚ} {z : Bool} (q0 : 1 / 8 ≤ q) (q1 : q ≤ 1 / 2)
    (eW : (fin S false + fin S false : FV f) = fin W false) (eT : (fin S false / fin W false : FV f) = fin (1 / 2) false)
    (W1 : 1 ≤ W) (W2 : W ≤ 1 + 1 / 10 ^ 6) :
    ∃ r, incomplete_beta_inv_initial_val_2 (i 1 : FV f) (i 1) (fin q z) (fin S false) (fin S false) = .ok (fin r false) ∧
      |(r:ℝ) - q| ≤ 2 / 1000 := by
  have u0 := uro_pos_real f
  have u1 := uro7_real f
  have W1r : (1:ℝ) ≤ W := by exact_mod_cast W1
  have W2r : (W:ℝ) ≤ 1 + 1 / 10 ^ 6 := by have := (Rat.cast_le (K := ℝ)).2 W2; push_cast at this; exact this
  have q0r : (1 / 8 : ℝ) ≤ q := by have := (Rat.cast_le (K := ℝ)).2 q0; push_cast at this; exact this
  have q1r : (q:ℝ) ≤ 1 / 2 := by have := (Rat.cast_le (K := ℝ)).2 q1; push_cast at this; exact this
  unfold incomplete_beta_inv_initial_val_2
  have c : (fin q z : FV f) ≤ fin S false / (fin S false + fin S false) := by
    rw [eW, eT]; exact ((is_fin q z).le_iff (is_fin _ _)).2 q1
  rw [if_pos c, eW]
  have i1 : Is (i 1 / i 1 : FV f) 1 := by
    have := (is_one (f := f)).div is_one (by norm_num) (nov (by norm_num))
    rwa [div_one, show rnd f 1 = 1 from rep_one'] at this
  obtain ⟨z1, e1⟩ := i1
  have x1 : |q * W| ≤ 2 ^ 0 := by rw [abs_of_pos (by nlinarith)]; norm_num at W2 ⊢; nlinarith
  have n1 := rnd_abs_le_two (f := f) _ x1
  have j1 := (is_fin (f := f) q z).mul (is_fin W false) (nov (x1.trans (by norm_num)))
  have j2 := j1.mul (is_one (f := f)) (nov (by rw [mul_one]; exact n1.trans (by norm_num)))
  rw [mul_one, show rnd f (rnd f (q * W)) = rnd f (q * W) from rep_rnd f _] at j2
  obtain ⟨zq, eq⟩ := j2
  have hq : Valid (fin (rnd f (q * W)) zq : FV f) := by rw [← eq]; exact valid_mul _ _
  have er := rnd_all_real f (q * W)
  rw [eq, e1]
  generalize rnd f (q * W) = y at *
  push_cast at er
  have er' : |(y:ℝ) - q * W| ≤ 2 / 10 ^ 7 := by
    refine er.trans ?_
    have : |(q:ℝ) * W| ≤ 1 := by
      have := (Rat.cast_le (K := ℝ)).2 x1
      push_cast at this; simpa using this
    have : (uro f:ℝ) * |(q:ℝ) * W| + uro f / 1000 ≤ 1 / 10 ^ 7 * 1 + 1 / 10 ^ 7 / 1000 := by gcongr
    norm_num at this ⊢; linarith
  have hW : |(q:ℝ) * W - q| ≤ 1 / 10 ^ 6 := by
    rw [abs_of_nonneg (by nlinarith)]; norm_num at W2r ⊢; nlinarith
  have k1 := abs_le.1 er'
  have k2 := abs_le.1 hW
  norm_num at k1 k2
  obtain ⟨r, e2, br⟩ := bi_pow hf (w := z1) hq ((Rat.cast_le (K := ℝ)).1 (by push_cast; linarith)) ((Rat.cast_le (K := ℝ)).1 (by push_cast; linarith))
  refine ⟨r, e2, ?_⟩
  have k3 := abs_le.1 br
  norm_num at k3
  exact abs_le.2 ⟨by linarith, by linarith⟩

theorem bi_start (hf : f.exact = false) {p : ℚ} {z : Bool} (hp : Valid (fin p z : FV f)) (p0 : 1 / 8 ≤ p) (p1 : p ≤ 7 / 8) :
    ∃ (v : ℚ) (w : Bool), incomplete_beta_inv_initial_val (i 1 : FV f) (i 1) (fin p z) = .ok (fin v w) ∧ Valid (fin v w : FV f) ∧
      |(v:ℝ) - p| ≤ 4 / 1000 := by
  have u0 := uro_pos_real f
  have u1 := uro7_real f
  have p0r : (1 / 8 : ℝ) ≤ p := by have := (Rat.cast_le (K := ℝ)).2 p0; push_cast at this; exact this
  have p1r : (p:ℝ) ≤ 7 / 8 := by have := (Rat.cast_le (K := ℝ)).2 p1; push_cast at this; exact this
  obtain ⟨S, W, s1, s2, eW, eT, W1, W2⟩ := bi_s hf
  have c1 : ¬ ((i 1 : FV f) > i 1 ∧ (i 1 : FV f) > i 1) := by
    rintro ⟨h, -⟩
    exact absurd (((is_one (f := f)).lt_iff is_one).1 h) (lt_irrefl _)
  unfold incomplete_beta_inv_initial_val
  rw [if_neg c1]
  rcases lt_or_ge (1 / 2) p with h | h
  · rw [if_pos ((is_d_half.lt_iff (is_fin (f := f) p z)).2 h)]
    have x1 : |1 - p| ≤ 2 ^ 0 := by rw [abs_of_nonneg (by linarith)]; norm_num; linarith
    obtain ⟨zq, eq⟩ := (is_one (f := f)).sub (is_fin p z) (nov (x1.trans (by norm_num)))
    have e1 := rnd_sub_real' (f := f) rep_one' hp.rep
    have r8 : Rep f (1 / 8 : ℚ) := by
      have := rep_pow2 (f := f) (e := -3) (by have := emin_neg f; rcases f with ⟨⟨⟩, ⟨⟩⟩ <;> decide +kernel)
      rwa [show pow2 (-3) = 1 / 8 by norm_num [pow2_eq]] at this
    have q0 : 1 / 8 ≤ rnd f (1 - p) := le_rnd_of_rep r8 (by linarith)
    have q1 : rnd f (1 - p) ≤ 1 / 2 := rnd_le_of_rep gi_rep_half (by linarith)
    rw [s1, s2]
    change ∃ (v : ℚ) (w : Bool), (do
      let r ← incomplete_beta_inv_initial_val_2 (i 1 : FV f) (i 1) (i 1 - fin p z) (fin S false) (fin S false)
      Except.ok (i 1 - r)) = .ok (fin v w) ∧ _
    rw [eq]
    generalize rnd f (1 - p) = q at *
    obtain ⟨r, er, br⟩ := bi_init (z := zq) hf q0 q1 eW eT W1 W2
    rw [er]
    change ∃ (v : ℚ) (w : Bool), Except.ok (i 1 - fin r false : FV f) = .ok (fin v w) ∧ _
    rw [Rat.cast_one, abs_of_nonneg (show (0:ℝ) ≤ 1 - p by linarith)] at e1
    have q0r : (1 / 8 : ℝ) ≤ q := by have := (Rat.cast_le (K := ℝ)).2 q0; push_cast at this; exact this
    have q1r : (q:ℝ) ≤ 1 / 2 := by have := (Rat.cast_le (K := ℝ)).2 q1; push_cast at this; exact this
    have e1' : |(q:ℝ) - (1 - p)| ≤ 1 / 10 ^ 7 * 1 := e1.trans (mul_le_mul u1 (by linarith) (by linarith) (by norm_num))
    have k1 := abs_le.1 e1'
    have k2 := abs_le.1 br
    norm_num at k1 k2
    have x2r : |1 - (r:ℝ)| ≤ 1 := abs_le.2 ⟨by linarith, by linarith⟩
    have x2 : |1 - r| ≤ 2 ^ 0 := by
      have : |1 - r| ≤ 1 := by exact_mod_cast x2r
      simpa using this
    obtain ⟨zv, ev⟩ := (is_one (f := f)).sub (is_fin r false) (nov (x2.trans (by norm_num)))
    refine ⟨rnd f (1 - r), zv, congrArg Except.ok ev, by rw [← ev]; exact valid_sub _ _, ?_⟩
    have e3 := rnd_all_real f (1 - r)
    push_cast at e3
    have e3' : |((rnd f (1 - r) : ℚ):ℝ) - (1 - r)| ≤ 1 / 10 ^ 7 * 1 + 1 / 10 ^ 7 / 1000 := e3.trans (by gcongr)
    have k3 := abs_le.1 e3'
    norm_num at k3
    exact abs_le.2 ⟨by linarith, by linarith⟩
  · rw [if_neg (fun c => absurd ((is_d_half.lt_iff (is_fin (f := f) p z)).1 c) (not_lt.2 h)), s1, s2]
    change ∃ (v : ℚ) (w : Bool), incomplete_beta_inv_initial_val_2 (i 1 : FV f) (i 1) (fin p z) (fin S false) (fin S false) = .ok (fin v w) ∧ _
    obtain ⟨r, er, br⟩ := bi_init (z := z) hf p0 h eW eT W1 W2
    refine ⟨r, false, er, ?_, by norm_num at br ⊢; linarith⟩
    unfold incomplete_beta_inv_initial_val_2 at er
    split_ifs at er
    · exact pow_valid er
    · cases h' : pow ((fin p z : FV f) * (fin S false + fin S false) * i 1) (i 1 / i 1) with
      | error e => rw [h'] at er; cases er
      | ok r' => rw [h'] at er; injection er with er; rw [← er]; exact valid_sub _ _

/-- `incomplete_beta_inv_deriv_1` for `a = b = 1`: a constant -/
theorem bi_deriv (hf : f.exact = false) {v D : ℚ} {zv : Bool} {B : FV f} (hv : Valid (fin v zv : FV f)) (v0 : 12 / 100 ≤ v) (v1 : v ≤ 88 / 100)
    (hB : ∀ z, exp ((fin 0 z : FV f) - B) = .ok (fin D false)) :
    incomplete_beta_inv_deriv_1 (fin v zv : FV f) (i 1) (i 1) B = .ok (fin D false) := by
  have mn := minNormal_le' f
  have s1 := (is_one (f := f)).sub (is_fin (f := f) v zv) (nov (le_trans (b := 2) (abs_le.2 ⟨by linarith, by linarith⟩) (by norm_num)))
  have r16 : Rep f (1 / 16 : ℚ) := by
    have := rep_pow2 (f := f) (e := -4) (by have := emin_neg f; rcases f with ⟨⟨⟩, ⟨⟩⟩ <;> decide +kernel)
    rwa [show pow2 (-4) = 1 / 16 by norm_num [pow2_eq]] at this
  have r1 : 1 / 16 ≤ rnd f (1 - v) := le_rnd_of_rep r16 (by linarith)
  obtain ⟨l, w, el, -⟩ := ib_log hf hv (le_trans (by norm_num) v0) (fun h e => ib_not_ten (by linarith) h e)
  obtain ⟨l1, q1, el1, iq1, -⟩ := ib_log1 hf hv (by linarith) (by linarith)
  have z0 : Is (i 1 - i 1 : FV f) 0 := by
    have := (is_one (f := f)).sub is_one (nov (by norm_num))
    rwa [sub_self, rnd_zero] at this
  have a1 : Is ((i 1 - i 1) * fin l w : FV f) 0 := by
    have := z0.mul (is_fin l w) (nov (by rw [zero_mul, abs_zero]; positivity))
    rwa [zero_mul, rnd_zero] at this
  have a2 : Is ((i 1 - i 1) * l1 : FV f) 0 := by
    have := z0.mul iq1 (nov (by rw [zero_mul, abs_zero]; positivity))
    rwa [zero_mul, rnd_zero] at this
  have a3 : Is ((i 1 - i 1) * fin l w + (i 1 - i 1) * l1 : FV f) 0 := by
    have := a1.add a2 (nov (by norm_num))
    rwa [add_zero, rnd_zero] at this
  obtain ⟨zz, ez⟩ := a3
  unfold incomplete_beta_inv_deriv_1
  rw [if_neg (by
      intro h
      have := ((is_fin (f := f) v zv).fabs.lt_iff (is_fin (f := f) (minNormal f) false)).1 h
      rw [abs_of_pos (by linarith)] at this
      exact absurd (lt_of_lt_of_le this mn) (not_lt.2 (le_trans (by norm_num) v0))),
    if_neg (by
      intro h
      have := (s1.fabs.lt_iff (is_fin (f := f) (minNormal f) false)).1 h
      rw [abs_of_pos (lt_of_lt_of_le (by norm_num) r1)] at this
      exact absurd (lt_of_lt_of_le this mn) (not_lt.2 (le_trans (by norm_num) r1)))]
  rw [el, el1]
  change exp ((i 1 - i 1) * fin l w + (i 1 - i 1) * l1 - B) = _
  rw [ez]
  exact hB zz

/-- `halley` with a vanishing second ratio -/
theorem bi_halley (hf : f.exact = false) {r1 r2 : FV f} {R : ℚ} (h1 : Is r1 R) (h2 : Is r2 0) (b1 : |R| ≤ 2 ^ 10) (hR : Rep f R) :
    Is (halley r1 r2) R := by
  have x1 : |1 / 2 * R| ≤ 2 ^ 10 := by rw [abs_mul]; norm_num; norm_num at b1; linarith
  have i1 := (is_d_half (f := f)).mul h1 (nov (x1.trans (by norm_num)))
  have i2 := i1.mul h2 (nov (by rw [mul_zero, abs_zero]; positivity))
  rw [mul_zero, rnd_zero] at i2
  have i3 := (is_one (f := f)).sub i2 (nov (by norm_num))
  rw [sub_zero, show rnd f 1 = 1 from rep_one'] at i3
  have c : fmax (d 0.8 : FV f) (fmin (d 1.2) (i 1 - d 0.5 * r1 * r2)) = i 1 - d 0.5 * r1 * r2 := by
    have h12 : ∃ b : ℚ, Is (d 1.2 : FV f) b ∧ 1 ≤ b := by
      rcases f with ⟨⟨⟩, ⟨⟩⟩
      · exact ⟨10066330/8388608, ⟨false, by decide +kernel⟩, by norm_num⟩
      · cases hf
      · exact ⟨5404319552844595/4503599627370496, ⟨false, by decide +kernel⟩, by norm_num⟩
      · cases hf
      · exact ⟨5404319552844595/4503599627370496, ⟨false, by decide +kernel⟩, by norm_num⟩
      · cases hf
    have h08 : ∃ b : ℚ, Is (d 0.8 : FV f) b ∧ b ≤ 1 := by
      rcases f with ⟨⟨⟩, ⟨⟩⟩
      · exact ⟨13421773/16777216, ⟨false, by decide +kernel⟩, by norm_num⟩
      · cases hf
      · exact ⟨3602879701896397/4503599627370496, ⟨false, by decide +kernel⟩, by norm_num⟩
      · cases hf
      · exact ⟨3602879701896397/4503599627370496, ⟨false, by decide +kernel⟩, by norm_num⟩
      · cases hf
    obtain ⟨b, ib, hb⟩ := h12
    obtain ⟨a, ia, ha⟩ := h08
    have e : fmin (d 1.2) (i 1 - d 0.5 * r1 * r2) = (i 1 - d 0.5 * r1 * r2 : FV f) := if_neg (fun c => absurd ((ib.lt_iff i3).1 c) (not_lt.2 hb))
    rw [e]
    exact if_neg (fun c => absurd ((i3.lt_iff ia).1 c) (not_lt.2 ha))
  have := h1.div (c ▸ i3) (by norm_num) (nov (by rw [div_one]; exact b1.trans (by norm_num)))
  rw [div_one, show rnd f R = R from hR] at this
  exact this

/-- `incomplete_beta(1, 1, v)` -/
theorem bi_val (hf : f.exact = false) {v : ℚ} {zv : Bool} (hv : Valid (fin v zv : FV f)) (v0 : 12 / 100 ≤ v) (v1 : v ≤ 88 / 100) :
    ∃ (r : ℚ) (w : Bool), incomplete_beta (i 1 : FV f) (i 1) (fin v zv) = .ok (fin r w) ∧
      |(r:ℝ) - v| ≤ 16100 * uro f + 3 / 10 ^ 13 := by
  have u0 := uro_pos_real f
  have m1 : (86:ℝ) ≤ expMin f.ty := by exact_mod_cast expMin_ge f.ty
  have v0r : (12 / 100 : ℝ) ≤ v := by have := (Rat.cast_le (K := ℝ)).2 v0; push_cast at this; exact this
  have v1r : (v:ℝ) ≤ 88 / 100 := by have := (Rat.cast_le (K := ℝ)).2 v1; push_cast at this; exact this
  have l1 := Real.one_sub_inv_le_log_of_pos (show (0:ℝ) < v by linarith)
  have l2 := Real.one_sub_inv_le_log_of_pos (show (0:ℝ) < 1 - v by linarith)
  have l3 := Real.log_nonpos (show (0:ℝ) ≤ v by linarith) (by linarith)
  have l4 := Real.log_nonpos (show (0:ℝ) ≤ 1 - v by linarith) (by linarith)
  have hs : (v:ℝ)⁻¹ + (1 - v:ℝ)⁻¹ ≤ 95 / 10 := by
    rw [inv_add_inv (by linarith) (by linarith), div_le_iff₀ (by nlinarith)]
    nlinarith
  have i0 : (0:ℝ) < (v:ℝ)⁻¹ := by positivity
  have i1 : (0:ℝ) < (1 - v:ℝ)⁻¹ := inv_pos.2 (by linarith)
  have o : (i 1 : FV f) = fin 1 false := by simp
  have ho : Valid (fin 1 false : FV f) := by rw [← o]; exact valid_i _
  obtain ⟨r, w, e, b⟩ := C81_accuracy (a := 1) (b := 1) hf ho ho hv (by norm_num) (by norm_num) (by norm_num) (by norm_num)
    (le_trans (by norm_num) v0) (lt_of_le_of_lt v1 (by norm_num)) (fun h e => ib_not_ten (by linarith) h e)
    (fun h e => ib_not_ten (by linarith) (by linarith) e) (by rw [Rat.cast_one, one_mul]; linarith) (by rw [Rat.cast_one, one_mul]; linarith)
  rw [← o] at e
  refine ⟨r, w, e, ?_⟩
  · rw [Rat.cast_one, ibI_uniform, div_eq_mul_one_div, ← uro_eq, abs_of_nonpos l3, abs_of_nonpos l4] at b
    refine b.trans ?_
    have : 13 * (1 * -Real.log (v:ℝ) + 1 * -Real.log (1 - v)) ≤ 100 := by linarith
    nlinarith

/-- one step, real arithmetic -/
theorem bi_real {p v D E S R V u A : ℝ} (u0 : 0 ≤ u) (u1 : u ≤ 1 / 10 ^ 7) (v0 : 0 ≤ v) (v1 : v ≤ 1) (hvp : |v - p| ≤ 4 / 1000) (A1 : A ≤ 2 / 1000)
    (D1 : 1 ≤ D) (D2 : D ≤ 1 + 4 * u) (hE : |E - v| ≤ A) (hS : |S - (E - p)| ≤ u * |E - p| + u / 1000)
    (hR : |R - S / D| ≤ u * |S / D| + u / 1000) (hV : |V - (v - R)| ≤ u * |v - R|) : |V - p| ≤ A + 2 * u := by
  have hEp : |E - p| ≤ 6 / 1000 := by
    have := abs_add_le (E - v) (v - p)
    rw [show E - v + (v - p) = E - p by ring] at this
    linarith
  have s1 : |S - (E - p)| ≤ 8 / 1000 * u := by nlinarith
  have s2 : |S| ≤ 7 / 1000 := by
    have := abs_add_le (S - (E - p)) (E - p)
    rw [sub_add_cancel] at this
    norm_num at u1
    linarith
  have D0 : 0 < D := by linarith
  have s3 : |S / D - S| ≤ 4 * u * (7 / 1000) := by
    have : S / D - S = -(S * ((D - 1) / D)) := by field_simp; ring
    rw [this, abs_neg, abs_mul, abs_of_nonneg (show 0 ≤ (D - 1) / D from div_nonneg (by linarith) D0.le)]
    have h1 : (D - 1) / D ≤ 4 * u := by rw [div_le_iff₀ D0]; nlinarith
    have h2 : 0 ≤ (D - 1) / D := div_nonneg (by linarith) D0.le
    calc |S| * ((D - 1) / D) ≤ 7 / 1000 * (4 * u) := by gcongr
      _ = _ := by ring
  have s4 : |S / D| ≤ 8 / 1000 := by
    have := abs_add_le (S / D - S) S
    rw [sub_add_cancel] at this
    norm_num at u1
    linarith
  have s5 : |R - S / D| ≤ 9 / 1000 * u := by nlinarith
  have s6 : |R| ≤ 1 / 100 := by
    have := abs_add_le (R - S / D) (S / D)
    rw [sub_add_cancel] at this
    norm_num at u1
    linarith
  have s7 : |v - R| ≤ 102 / 100 := by
    have := abs_sub v R
    rw [abs_of_nonneg v0] at this
    linarith
  have s8 : |V - (v - R)| ≤ 102 / 100 * u := hV.trans (by nlinarith)
  have a1 := abs_le.1 hE
  have a2 := abs_le.1 s1
  have a3 := abs_le.1 s3
  have a4 := abs_le.1 s5
  have a5 := abs_le.1 s8
  refine abs_le.2 ⟨?_, ?_⟩ <;> linarith

/-- one step of the iteration: independent of how good the previous value was -/
theorem bi_step (hf : f.exact = false) {p v D : ℚ} {zp zv : Bool} (hv : Valid (fin v zv : FV f)) (v0 : 12 / 100 ≤ v) (v1 : v ≤ 88 / 100)
    (hvp : |(v:ℝ) - p| ≤ 4 / 1000) (D1 : 1 ≤ D) (D2 : D ≤ 1 + 4 * uro f) :
    ∃ (r1 : FV f) (v' : ℚ) (z' : Bool), incomplete_beta_inv_ratio_val_1 (fin v zv : FV f) (i 1) (i 1) (fin p zp) (fin D false) = .ok r1 ∧
      (fin v zv : FV f) - halley r1 (incomplete_beta_inv_ratio_val_2 (fin v zv) (i 1) (i 1) (fin D false)) = fin v' z' ∧ Valid (fin v' z' : FV f) ∧
      |(v':ℝ) - p| ≤ 16102 * uro f + 3 / 10 ^ 13 := by
  have u0 := uro_pos_real f
  have u1 := uro7_real f
  have u2 := uro_le f
  have v0r : (12 / 100 : ℝ) ≤ v := by have := (Rat.cast_le (K := ℝ)).2 v0; push_cast at this; exact this
  have v1r : (v:ℝ) ≤ 88 / 100 := by have := (Rat.cast_le (K := ℝ)).2 v1; push_cast at this; exact this
  have D1r : (1:ℝ) ≤ D := by exact_mod_cast D1
  have D2r : (D:ℝ) ≤ 1 + 4 * uro f := by have := (Rat.cast_le (K := ℝ)).2 D2; push_cast at this; exact this
  have vp : 0 < v := by linarith
  have va : |v| = v := abs_of_pos vp
  obtain ⟨E, wE, eE, hE⟩ := bi_val hf hv v0 v1
  have A1 : 16100 * (uro f:ℝ) + 3 / 10 ^ 13 ≤ 2 / 1000 := by norm_num at u2 ⊢; linarith
  have a1 := abs_le.1 (hE.trans A1)
  have a2 := abs_le.1 hvp
  have hEp : |((E - p : ℚ) : ℝ)| ≤ 1 := by
    push_cast
    exact abs_le.2 ⟨by linarith, by linarith⟩
  have hEp' : |E - p| ≤ 2 ^ 0 := by
    have : |E - p| ≤ 1 := by exact_mod_cast hEp
    simpa using this
  have D0 : 0 < D := by linarith
  have iS := (is_fin (f := f) E wE).sub (is_fin p zp) (nov (hEp'.trans (by norm_num)))
  have nS := rnd_abs_le_two (f := f) _ hEp'
  have xR : |rnd f (E - p) / D| ≤ 2 ^ 0 := by
    rw [abs_div, abs_of_pos D0, div_le_iff₀ D0]; norm_num at nS ⊢; linarith
  have iR := iS.div (is_fin D false) D0.ne' (nov (xR.trans (by norm_num)))
  have nR := rnd_abs_le_two (f := f) _ xR
  have z0 : Is (i 1 - i 1 : FV f) 0 := by
    have := (is_one (f := f)).sub is_one (nov (by norm_num))
    rwa [sub_self, rnd_zero] at this
  have z1 : Is ((i 1 - i 1) / fin v zv : FV f) 0 := by
    have := z0.div (is_fin v zv) vp.ne' (nov (by rw [zero_div, abs_zero]; positivity))
    rwa [zero_div, rnd_zero] at this
  have s1 := (is_one (f := f)).sub (is_fin (f := f) v zv) (nov (le_trans (b := 2) (abs_le.2 ⟨by linarith, by linarith⟩) (by norm_num)))
  have r16 : Rep f (1 / 16 : ℚ) := by
    have := rep_pow2 (f := f) (e := -4) (by have := emin_neg f; rcases f with ⟨⟨⟩, ⟨⟩⟩ <;> decide +kernel)
    rwa [show pow2 (-4) = 1 / 16 by norm_num [pow2_eq]] at this
  have r1 : 1 / 16 ≤ rnd f (1 - v) := le_rnd_of_rep r16 (by linarith)
  have z2 : Is ((i 1 - i 1) / (i 1 - fin v zv) : FV f) 0 := by
    have := z0.div s1 (by linarith) (nov (by rw [zero_div, abs_zero]; positivity))
    rwa [zero_div, rnd_zero] at this
  have z3 : Is ((i 1 - i 1) / fin v zv - (i 1 - i 1) / (i 1 - fin v zv) : FV f) 0 := by
    have := z1.sub z2 (nov (by norm_num))
    rwa [sub_zero, rnd_zero] at this
  have z4 := (is_fin (f := f) D false).mul z3 (nov (by rw [mul_zero, abs_zero]; positivity))
  rw [mul_zero, rnd_zero] at z4
  have z5 := z4.div (is_fin D false) D0.ne' (nov (by rw [zero_div, abs_zero]; positivity))
  rw [zero_div, rnd_zero] at z5
  have ig := bi_halley hf iR z5 (nR.trans (by norm_num)) (rep_rnd f _)
  have x5 : |v - rnd f (rnd f (E - p) / D)| ≤ 2 ^ 2 := by
    have := abs_sub v (rnd f (rnd f (E - p) / D))
    rw [va] at this
    norm_num at nR ⊢
    linarith
  obtain ⟨z', e'⟩ := (is_fin (f := f) v zv).sub ig (nov (x5.trans (by norm_num)))
  refine ⟨(fin E wE - fin p zp) / fin D false, _, z', ?_, e', ?_, ?_⟩
  · unfold incomplete_beta_inv_ratio_val_1; rw [eE]; rfl
  · have : Valid ((fin v zv : FV f) - halley ((fin E wE - fin p zp) / fin D false) (incomplete_beta_inv_ratio_val_2 (fin v zv) (i 1) (i 1) (fin D false))) :=
      valid_sub _ _
    exact (show (fin v zv : FV f) - halley ((fin E wE - fin p zp) / fin D false) (incomplete_beta_inv_ratio_val_2 (fin v zv) (i 1) (i 1) (fin D false)) =
      fin _ z' from e') ▸ this
  · have hS := rnd_all_real f (E - p)
    have hR := rnd_all_real f (rnd f (E - p) / D)
    have hvv := rnd_sub_real' (f := f) hv.rep (rep_rnd f (rnd f (E - p) / D))
    clear e' ig iR iS z5 z4 z3 z2 z1 x5 nR xR nS
    generalize rnd f (v - rnd f (rnd f (E - p) / D)) = V at *
    generalize rnd f (rnd f (E - p) / D) = R at *
    generalize rnd f (E - p) = S at *
    push_cast at hS hR hvv
    exact (bi_real u0.le u1 (by linarith) (by linarith) hvp A1 D1r D2r hE hS hR hvv).trans (le_of_eq (by ring))

/-- the whole iteration -/
theorem bi_iter (hf : f.exact = false) {p D : ℚ} {zp : Bool} {B : FV f} (p0 : 1 / 8 ≤ p) (p1 : p ≤ 7 / 8)
    (hB : ∀ z, exp ((fin 0 z : FV f) - B) = .ok (fin D false)) (D1 : 1 ≤ D) (D2 : D ≤ 1 + 4 * uro f) :
    ∀ (n : ℕ) (v : ℚ) (zv : Bool), Valid (fin v zv : FV f) → |(v:ℝ) - p| ≤ 4 / 1000 →
      ∃ (r : ℚ) (z : Bool), incomplete_beta_inv_recur (i 1 : FV f) (i 1) (fin p zp) B n (fin v zv) (fin D false) = .ok (fin r z) ∧
        |(r:ℝ) - p| ≤ 16102 * uro f + 3 / 10 ^ 13 := by
  have u2 := uro_le f
  have p0r : (1 / 8 : ℝ) ≤ p := by have := (Rat.cast_le (K := ℝ)).2 p0; push_cast at this; exact this
  have p1r : (p:ℝ) ≤ 7 / 8 := by have := (Rat.cast_le (K := ℝ)).2 p1; push_cast at this; exact this
  have mn := minNormal_le' f
  have cD : ¬ (limMin > fabs (fin D false : FV f)) := by
    intro h
    have := ((is_fin (f := f) D false).fabs.lt_iff (is_fin (f := f) (minNormal f) false)).1 h
    rw [abs_of_pos (by linarith)] at this
    exact absurd (lt_of_lt_of_le this mn) (not_lt.2 (le_trans (by norm_num) D1))
  intro n
  induction n with
  | zero =>
    intro v zv hv hvp
    have a := abs_le.1 hvp
    have v0 : 12 / 100 ≤ v := (Rat.cast_le (K := ℝ)).1 (by push_cast; linarith)
    have v1 : v ≤ 88 / 100 := (Rat.cast_le (K := ℝ)).1 (by push_cast; linarith)
    obtain ⟨r1, v', z', e1, e2, -, b⟩ := bi_step (zp := zp) hf hv v0 v1 hvp D1 D2
    refine ⟨v', z', ?_, b⟩
    unfold incomplete_beta_inv_recur
    rw [if_neg cD, e1]
    exact congrArg Except.ok e2
  | succ n ih =>
    intro v zv hv hvp
    have a := abs_le.1 hvp
    have v0 : 12 / 100 ≤ v := (Rat.cast_le (K := ℝ)).1 (by push_cast; linarith)
    have v1 : v ≤ 88 / 100 := (Rat.cast_le (K := ℝ)).1 (by push_cast; linarith)
    obtain ⟨r1, v', z', e1, e2, hv', b⟩ := bi_step (zp := zp) hf hv v0 v1 hvp D1 D2
    obtain ⟨r, z, er, br⟩ := ih v' z' hv' (b.trans (by norm_num at u2 ⊢; linarith))
    refine ⟨r, z, ?_, br⟩
    rw [← er, ← e2]
    conv_lhs => unfold incomplete_beta_inv_recur
    rw [if_neg cD, e1]
    change (incomplete_beta_inv_deriv_1 (fin v zv) (i 1) (i 1) B >>= fun d1 => _) = _
    rw [bi_deriv hf hv v0 v1 hB]
    rfl

theorem bi_glue {a b p v lb d1 r : FV f} (h1 : incomplete_beta_inv_initial_val a b p = .ok v) (h2 : lbeta a b = .ok lb)
    (h3 : incomplete_beta_inv_deriv_1 v a b lb = .ok d1) (h4 : incomplete_beta_inv_recur a b p lb 35 v d1 = .ok r) :
    (do
      let iv ← incomplete_beta_inv_initial_val a b p
      let lb ← lbeta a b
      incomplete_beta_inv_begin iv a b p lb) = .ok r := by
  have k3 : ∀ g : FV f → Res (FV f), g d1 = .ok r → (do
      let d1 ← incomplete_beta_inv_deriv_1 v a b lb
      g d1) = .ok r := fun g hg => by rw [h3]; exact hg
  have e : incomplete_beta_inv_begin v a b p lb = .ok r := k3 _ h4
  have k : ∀ g : FV f → FV f → Res (FV f), g v lb = .ok r → (do
      let iv ← incomplete_beta_inv_initial_val a b p
      let lg ← lbeta a b
      g iv lg) = .ok r := fun g hg => by rw [h1, h2]; exact hg
  exact k (fun iv lb => incomplete_beta_inv_begin iv a b p lb) e

/-- C93: for every `p` with `1/8 ≤ p ≤ 7/8`, `incomplete_beta_inv(1, 1, p)` is finite and differs from the exact quantile of the uniform
distribution, `p` itself, by at most `16110 u + 3/10^13`, `u` the unit roundoff. -/
theorem C93_accuracy (hf : f.exact = false) (p : ℚ) (z : Bool) (hx : Valid (fin p z : FV f)) (p0 : 1 / 8 ≤ p) (p1 : p ≤ 7 / 8) :
    ∃ (r : ℚ) (w : Bool), incomplete_beta_inv (i 1 : FV f) (i 1) (fin p z) = .ok (fin r w) ∧
      |(r:ℝ) - p| ≤ 16110 * (1 / 2 ^ f.prec) + 3 / 10 ^ 13 := by
  have u0 := uro_pos_real f
  have p0r : (1 / 8 : ℝ) ≤ p := by have := (Rat.cast_le (K := ℝ)).2 p0; push_cast at this; exact this
  have p1r : (p:ℝ) ≤ 7 / 8 := by have := (Rat.cast_le (K := ℝ)).2 p1; push_cast at this; exact this
  obtain ⟨v, zv, ev, hv, bv⟩ := bi_start hf hx p0 p1
  have a := abs_le.1 bv
  have v0 : 12 / 100 ≤ v := (Rat.cast_le (K := ℝ)).1 (by push_cast; linarith)
  have v1 : v ≤ 88 / 100 := (Rat.cast_le (K := ℝ)).1 (by push_cast; linarith)
  obtain ⟨B, D, eB, hB, D1, D2⟩ := bi_lb hf
  obtain ⟨r, w, er, br⟩ := bi_iter (zp := z) hf p0 p1 hB D1 D2 35 v zv hv bv
  refine ⟨r, w, ?_, by rw [← uro_eq]; linarith⟩
  have i1 := is_one (f := f)
  have mn := minNormal_le' f
  have s1 := i1.sub (is_fin (f := f) p z) (nov (le_trans (b := 2) (abs_le.2 ⟨by linarith, by linarith⟩) (by norm_num)))
  have r16 : Rep f (1 / 16 : ℚ) := by
    have := rep_pow2 (f := f) (e := -4) (by have := emin_neg f; rcases f with ⟨⟨⟩, ⟨⟩⟩ <;> decide +kernel)
    rwa [show pow2 (-4) = 1 / 16 by norm_num [pow2_eq]] at this
  have r1 : 1 / 16 ≤ rnd f (1 - p) := le_rnd_of_rep r16 (by linarith)
  have o : (i 1 : FV f) = fin 1 false := by simp
  unfold incomplete_beta_inv incomplete_beta_inv_check
  rw [if_neg (by rw [o]; simp [any_nan3]), if_neg (by
      intro h
      have := ((is_fin (f := f) p z).lt_iff (is_fin (minNormal f) false)).1 h
      exact absurd (lt_of_lt_of_le this mn) (not_lt.2 (le_trans (by norm_num) p0))),
    if_neg (by
      intro h
      have := (s1.fabs.lt_iff (is_fin (f := f) (minNormal f) false)).1 h
      rw [abs_of_pos (lt_of_lt_of_le (by norm_num) r1)] at this
      exact absurd (lt_of_lt_of_le this mn) (not_lt.2 (le_trans (by norm_num) r1)))]
  exact bi_glue ev eB (bi_deriv hf hv v0 v1 hB) er

/-- C93_accuracy for a concrete argument: the 0.75 quantile in `double` -/
example : ∃ (r : ℚ) (w : Bool), incomplete_beta_inv (i 1 : FV binary64) (i 1) (fin (3 / 4) false) = .ok (fin r w) ∧
    |(r:ℝ) - 3 / 4| ≤ 1 / 10 ^ 11 := by
  obtain ⟨r, w, e, b⟩ := C93_accuracy (f := binary64) rfl (3 / 4) false (by decide +kernel) (by norm_num) (by norm_num)
  refine ⟨r, w, e, ?_⟩
  push_cast at b
  refine b.trans ?_
  norm_num [Fmt.prec, FTy.prec]

/-- C93 (why powers of ten are kept out of the range): in `float` the `1e-6` quantile of the uniform distribution is NaN.  The second
iterate is `1e-6f` itself; there `incomplete_beta` is ten times too large, so the next iterate is negative. -/
theorem C93_nan : ∃ x : ℚ, (d 1e-6 : FV binary32) = fin x false ∧
    incomplete_beta_inv (i 1 : FV binary32) (i 1) (fin x false) = .ok nan := by
  refine ⟨8796093/8796093022208, by decide +kernel, by decide +kernel⟩

end Gcem.Props
