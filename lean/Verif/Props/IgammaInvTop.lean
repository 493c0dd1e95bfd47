import Verif.Props.IgammaInv

/-! # C92: `incomplete_gamma_inv(1, p)`, start values and the error bound -/

namespace Gcem.Props
open FV

variable {f : Fmt}

theorem gi_t (hf : f.exact = false) : ∃ T : ℚ, incomplete_gamma_inv_t_val_2 (i 1 : FV f) = fin T false ∧
    62699 / 100000 ≤ T ∧ T ≤ 62701 / 100000 := by
  rcases f with ⟨⟨⟩, ⟨⟩⟩
  · exact ⟨5259657/8388608, by decide +kernel, by norm_num, by norm_num⟩
  · cases hf
  · exact ⟨2823756966361301/4503599627370496, by decide +kernel, by norm_num, by norm_num⟩
  · cases hf
  · exact ⟨2823756966361301/4503599627370496, by decide +kernel, by norm_num, by norm_num⟩
  · cases hf

theorem gi_rep_half : Rep f (1 / 2 : ℚ) := by
  have := rep_pow2 (f := f) (e := -1) (by have := emin_neg f; rcases f with ⟨⟨⟩, ⟨⟩⟩ <;> decide +kernel)
  rwa [show pow2 (-1) = 1 / 2 by norm_num [pow2_eq]] at this

/-- logarithm of a number known with a small relative error -/
theorem gi_log_rel {x x' ε : ℝ} (x0 : 0 < x) (e1 : ε ≤ 1 / 2) (h : |x' - x| ≤ ε * x) : |Real.log x' - Real.log x| ≤ 2 * ε := by
  have h' := abs_le.1 h
  have e0 : 0 ≤ ε := by
    have := (abs_nonneg _).trans h
    by_contra hc
    push Not at hc
    nlinarith
  have hx : 0 < x' := by nlinarith
  rw [← Real.log_div hx.ne' x0.ne']
  have a1 := Real.log_le_sub_one_of_pos (show 0 < x' / x by positivity)
  have a2 := Real.one_sub_inv_le_log_of_pos (show 0 < x' / x by positivity)
  rw [inv_div] at a2
  have b1 : x' / x ≤ 1 + ε := by rw [div_le_iff₀ x0]; linarith
  have b2 : x / x' ≤ 1 + 2 * ε := by
    rw [div_le_iff₀ hx]
    nlinarith
  exact abs_le.2 ⟨by linarith, by linarith⟩

/-- start value below the threshold, exact version -/
theorem gi_start1 {p T : ℝ} (T1 : 62699 / 100000 ≤ T) (T2 : T ≤ 62701 / 100000) (p0 : 1 / 2 ≤ p) (pT : p ≤ T) :
    |p / T - -Real.log (1 - p)| ≤ 11 / 100 := by
  have T0 : 0 < T := by linarith
  have s0 : 0 < 1 - p := by linarith
  have l2 := Real.log_two_gt_d9
  have l2' := Real.log_two_lt_d9
  have a1 := Real.log_le_sub_one_of_pos (show 0 < (1 - p) * 2 by positivity)
  have a2 := Real.one_sub_inv_le_log_of_pos (show 0 < (1 - p) * 2 by positivity)
  rw [Real.log_mul s0.ne' (by norm_num)] at a1 a2
  have c1 : p / T ≤ 1595 / 1000 * p := by rw [div_le_iff₀ T0]; nlinarith
  have c2 : 1594 / 1000 * p ≤ p / T := by rw [le_div_iff₀ T0]; nlinarith
  have c3 : ((1 - p) * 2)⁻¹ ≤ 1 + 269 / 100 * (p - 1 / 2) := by
    rw [inv_le_comm₀ (by positivity) (by nlinarith)]
    rw [inv_le_iff_one_le_mul₀ (by nlinarith)]
    nlinarith
  refine abs_le.2 ⟨by linarith, by linarith⟩

theorem gi_lT {T : ℝ} (T1 : 62699 / 100000 ≤ T) (T2 : T ≤ 62701 / 100000) : |1 + Real.log (1 - T)| ≤ 2 / 100 := by
  have hT1 : 0 < 1 - T := by linarith
  have ex := Real.exp_one_gt_d9
  have ex' := Real.exp_one_lt_d9
  have hx : 0 < Real.exp 1 * (1 - T) := by positivity
  have h1 := Real.log_le_sub_one_of_pos hx
  have h2 := Real.one_sub_inv_le_log_of_pos hx
  rw [Real.log_mul (Real.exp_pos _).ne' hT1.ne', Real.log_exp] at h1 h2
  have h3 : (Real.exp 1 * (1 - T))⁻¹ ≤ 1 := by
    rw [inv_le_one₀ hx]; nlinarith
  refine abs_le.2 ⟨by linarith, ?_⟩
  nlinarith

theorem gi_quot {a b P S : ℝ} (b0 : 372 / 1000 ≤ b) (S0 : 37 / 100 ≤ S) (P0 : 0 ≤ P) (P1 : P ≤ 1 / 3) (ha : |a - P| ≤ 1 / 10 ^ 7 * 1) (hb : |b - S| ≤ 1 / 10 ^ 7 * 1) :
    |a / b - P / S| ≤ 15 / 10 ^ 7 * 4 := by
  have bq : 0 < b := by linarith
  have hS : 0 < S := by linarith
  have k : a / b - P / S = ((a - P) * S - P * (b - S)) / (b * S) := by field_simp; ring
  rw [k, abs_div, abs_of_pos (by positivity : (0:ℝ) < b * S), div_le_iff₀ (by positivity)]
  have k1 : |(a - P) * S - P * (b - S)| ≤ 1 / 10 ^ 7 * 1 * S + P * (1 / 10 ^ 7 * 1) := by
    refine (abs_sub _ _).trans ?_
    rw [abs_mul, abs_mul, abs_of_pos hS, abs_of_nonneg P0]
    gcongr
  refine k1.trans ?_
  norm_num
  nlinarith

theorem gi_init1 (hf : f.exact = false) {p T : ℚ} {zp : Bool} (p0 : 1 / 2 ≤ p) (p1 : p ≤ 95 / 100)
    (T1 : 62699 / 100000 ≤ T) (T2 : T ≤ 62701 / 100000) (h : p < T) :
    ∃ (v : ℚ) (z : Bool), incomplete_gamma_inv_initial_val_2 (i 1 : FV f) (fin p zp) (fin T false) = .ok (fin v z) ∧ Valid (fin v z : FV f) ∧
      |(v:ℝ) - -Real.log (1 - p)| ≤ 1 / 9 := by
  have u0 := uro_pos_real f
  have u1 := uro7_real f
  have T1r : (62699 / 100000 : ℝ) ≤ T := by have := (Rat.cast_le (K := ℝ)).2 T1; push_cast at this; exact this
  have T2r : (T:ℝ) ≤ 62701 / 100000 := by have := (Rat.cast_le (K := ℝ)).2 T2; push_cast at this; exact this
  have p0r : (1 / 2 : ℝ) ≤ p := by have := (Rat.cast_le (K := ℝ)).2 p0; push_cast at this; exact this
  have p1r : (p:ℝ) ≤ 95 / 100 := by have := (Rat.cast_le (K := ℝ)).2 p1; push_cast at this; exact this
  have T0 : 0 < T := by linarith
  unfold incomplete_gamma_inv_initial_val_2
  rw [if_pos (((is_fin (f := f) p zp).lt_iff (is_fin T false)).2 h)]
  have b : |p / T| ≤ 2 ^ 0 := by
    rw [abs_of_pos (by positivity), div_le_iff₀ T0]; norm_num; linarith
  obtain ⟨zq, eq⟩ := (is_fin (f := f) p zp).div (is_fin T false) T0.ne' (nov (b.trans (by norm_num)))
  have i1 : Is (i 1 / i 1 : FV f) 1 := by
    have := (is_one (f := f)).div is_one (by norm_num) (nov (by norm_num))
    rwa [div_one, show rnd f 1 = 1 from rep_one'] at this
  obtain ⟨z1, e1⟩ := i1
  have hq : Valid (fin (rnd f (p / T)) zq : FV f) := by rw [← eq]; exact valid_div _ _
  have er := rnd_all_real f (p / T)
  have q1 : rnd f (p / T) ≤ 1 := rnd_le_of_rep rep_one' (by rw [div_le_iff₀ T0]; linarith)
  have q0 : 1 / 2 ≤ rnd f (p / T) := le_rnd_of_rep gi_rep_half (by rw [le_div_iff₀ T0]; linarith)
  rw [eq, e1]
  generalize rnd f (p / T) = q at *
  have q1r : (q:ℝ) ≤ 1 := by exact_mod_cast q1
  have q0r : (1 / 2 : ℝ) ≤ q := by have := (Rat.cast_le (K := ℝ)).2 q0; push_cast at this; exact this
  have lq : |Real.log q| ≤ 1 := by
    have h1 := Real.log_le_sub_one_of_pos (show (0:ℝ) < q by linarith)
    have h2 := Real.one_sub_inv_le_log_of_pos (show (0:ℝ) < q by linarith)
    have h3 : (q:ℝ)⁻¹ ≤ 2 := by rw [inv_le_comm₀ (by linarith) (by norm_num)]; linarith
    exact abs_le.2 ⟨by linarith, by linarith⟩
  have m1 : (86:ℝ) ≤ expMin f.ty := by exact_mod_cast expMin_ge f.ty
  obtain ⟨r, e2, r0, br⟩ := C65_accuracy hf q 1 zq z1 hq q0 (by rw [Rat.cast_one, one_mul]; linarith)
  refine ⟨r, false, e2, pow_valid e2, ?_⟩
  rw [Rat.cast_one, one_mul, Real.rpow_one, ← uro_eq] at br
  have br' : |(r:ℝ) - q| ≤ ((105 + 46 * 1) * (1 / 10 ^ 7) + (1 + 8) * (1 / 2 ^ 62)) * 1 := by
    refine br.trans ?_
    gcongr
  push_cast at er
  have er' : |(q:ℝ) - p / T| ≤ 1 / 10 ^ 7 * 1 + 1 / 10 ^ 7 / 1000 := by
    refine er.trans ?_
    have : |(p:ℝ) / T| ≤ 1 := by
      have := (Rat.cast_le (K := ℝ)).2 b
      push_cast at this; simpa using this
    gcongr
  have st := gi_start1 T1r T2r p0r (by exact_mod_cast h.le)
  have k1 := abs_add_le ((r:ℝ) - q) (q - p / T)
  have k2 := abs_add_le ((r:ℝ) - q + (q - p / T)) (p / T - -Real.log (1 - p))
  rw [show (r:ℝ) - q + (q - p / T) + (p / T - -Real.log (1 - p)) = r - -Real.log (1 - p) by ring] at k2
  norm_num at br' er' st k1 k2 ⊢
  linarith

theorem gi_init2 (hf : f.exact = false) {p T : ℚ} {zp : Bool} (hp : Valid (fin p zp : FV f)) (p0 : 1 / 2 ≤ p) (p1 : p ≤ 95 / 100)
    (hT : Valid (fin T false : FV f)) (T1 : 62699 / 100000 ≤ T) (T2 : T ≤ 62701 / 100000) (h : T ≤ p) :
    ∃ (v : ℚ) (z : Bool), incomplete_gamma_inv_initial_val_2 (i 1 : FV f) (fin p zp) (fin T false) = .ok (fin v z) ∧ Valid (fin v z : FV f) ∧
      |(v:ℝ) - -Real.log (1 - p)| ≤ 1 / 9 := by
  have u0 := uro_pos_real f
  have u1 := uro7_real f
  have T1r : (62699 / 100000 : ℝ) ≤ T := by have := (Rat.cast_le (K := ℝ)).2 T1; push_cast at this; exact this
  have T2r : (T:ℝ) ≤ 62701 / 100000 := by have := (Rat.cast_le (K := ℝ)).2 T2; push_cast at this; exact this
  have p0r : (1 / 2 : ℝ) ≤ p := by have := (Rat.cast_le (K := ℝ)).2 p0; push_cast at this; exact this
  have p1r : (p:ℝ) ≤ 95 / 100 := by have := (Rat.cast_le (K := ℝ)).2 p1; push_cast at this; exact this
  have T0 : 0 < T := by linarith
  unfold incomplete_gamma_inv_initial_val_2
  rw [if_neg (by
    intro h'
    exact absurd (((is_fin (f := f) p zp).lt_iff (is_fin T false)).1 h') (not_lt.2 h))]
  have x1 : |p - T| ≤ 2 ^ 0 := by rw [abs_of_nonneg (by linarith)]; norm_num; linarith
  have i1 := (is_fin (f := f) p zp).sub (is_fin T false) (nov (x1.trans (by norm_num)))
  have n1 := rnd_abs_le_two (f := f) _ x1
  have x2 : |1 - T| ≤ 2 ^ 0 := by rw [abs_of_nonneg (by linarith)]; norm_num; linarith
  have i2 := (is_one (f := f)).sub (is_fin T false) (nov (x2.trans (by norm_num)))
  have e1 := rnd_sub_real' (f := f) hp.rep hT.rep
  have e2 := rnd_sub_real' (f := f) rep_one' hT.rep
  have hpT : (T:ℝ) ≤ p := by exact_mod_cast h
  rw [Rat.cast_one] at e2
  rw [abs_of_nonneg (show (0:ℝ) ≤ p - T by linarith)] at e1
  rw [abs_of_nonneg (show (0:ℝ) ≤ 1 - T by linarith)] at e2
  have e1' : |((rnd f (p - T) : ℚ) : ℝ) - (p - T)| ≤ 1 / 10 ^ 7 * 1 := e1.trans (by gcongr; linarith)
  have e2' : |((rnd f (1 - T) : ℚ) : ℝ) - (1 - T)| ≤ 1 / 10 ^ 7 * 1 := e2.trans (mul_le_mul u1 (by linarith) (by linarith) (by norm_num))
  have e1a := abs_le.1 e1'
  have e2a := abs_le.1 e2'
  have b0 : (372 / 1000 : ℝ) ≤ ((rnd f (1 - T) : ℚ) : ℝ) := by norm_num at e2a ⊢; linarith
  have b0' : 372 / 1000 ≤ rnd f (1 - T) := (Rat.cast_le (K := ℝ)).1 (by push_cast; exact b0)
  have bp : 0 < rnd f (1 - T) := by linarith
  have x3 : |rnd f (p - T) / rnd f (1 - T)| ≤ 2 ^ 2 := by
    rw [abs_div, abs_of_pos bp, div_le_iff₀ bp]; norm_num at n1 ⊢; linarith
  have i3 := i1.div i2 bp.ne' (nov (x3.trans (by norm_num)))
  have n3 := rnd_abs_le_two (f := f) _ x3
  have e3 := rnd_all_real f (rnd f (p - T) / rnd f (1 - T))
  have x4 : |1 - rnd f (rnd f (p - T) / rnd f (1 - T))| ≤ 2 ^ 3 := by
    have := abs_sub 1 (rnd f (rnd f (p - T) / rnd f (1 - T)))
    norm_num at this n3 ⊢; linarith
  obtain ⟨zq, eq⟩ := (is_one (f := f)).sub i3 (nov (x4.trans (by norm_num)))
  have e4 := rnd_all_real f (1 - rnd f (rnd f (p - T) / rnd f (1 - T)))
  have hq : Valid (fin (rnd f (1 - rnd f (rnd f (p - T) / rnd f (1 - T)))) zq : FV f) := by rw [← eq]; exact valid_sub _ _
  rw [eq]
  have x3r : |((rnd f (p - T) : ℚ) : ℝ) / ((rnd f (1 - T) : ℚ) : ℝ)| ≤ 4 := by
    have := (Rat.cast_le (K := ℝ)).2 x3; push_cast at this; norm_num at this ⊢; exact this
  have x4r := (Rat.cast_le (K := ℝ)).2 x4
  push_cast at e3 e4 x4r
  clear i1 i2 i3 x1 x2 x3 x4 n1 n3 e1 e2 e1' e2' eq
  generalize rnd f (1 - rnd f (rnd f (p - T) / rnd f (1 - T))) = q at *
  generalize rnd f (rnd f (p - T) / rnd f (1 - T)) = c at *
  generalize rnd f (p - T) = a at *
  generalize rnd f (1 - T) = b at *
  have hT1 : (0:ℝ) < 1 - T := by linarith
  have bq : (0:ℝ) < b := by linarith
  -- the argument of the logarithm
  have d1 := gi_quot b0 (by linarith) (by linarith) (by linarith) (abs_le.2 e1a) (abs_le.2 e2a)
  have d2 : |(c:ℝ) - a / b| ≤ 5 / 10 ^ 7 := by
    refine e3.trans ?_
    have : (uro f : ℝ) * |(a:ℝ) / b| + uro f / 1000 ≤ 1 / 10 ^ 7 * 4 + 1 / 10 ^ 7 / 1000 := by gcongr
    norm_num at this ⊢; linarith
  have d3 : |(q:ℝ) - (1 - c)| ≤ 9 / 10 ^ 7 := by
    refine e4.trans ?_
    have : (uro f : ℝ) * |1 - (c:ℝ)| + uro f / 1000 ≤ 1 / 10 ^ 7 * 2 ^ 3 + 1 / 10 ^ 7 / 1000 := by gcongr
    norm_num at this ⊢; linarith
  set s : ℝ := (1 - p) / (1 - T) with hs
  have hs1 : s = 1 - (p - T) / (1 - T) := by rw [hs]; field_simp; ring
  have s0 : 134 / 1000 ≤ s := by rw [hs, le_div_iff₀ hT1]; linarith
  have s1 : s ≤ 1 := by rw [hs, div_le_iff₀ hT1]; linarith
  have d4 : |(q:ℝ) - s| ≤ 1 / 10 ^ 4 * s := by
    have k1 := abs_le.1 d1
    have k2 := abs_le.1 d2
    have k3 := abs_le.1 d3
    refine abs_le.2 ⟨?_, ?_⟩ <;> norm_num at k1 k2 k3 ⊢ <;> linarith
  have d5 := gi_log_rel (by linarith) (by norm_num) d4
  have d4' := abs_le.1 d4
  have q0 : (11 / 100 : ℝ) ≤ q := by norm_num at d4' ⊢; linarith
  have q0' : 11 / 100 ≤ q := (Rat.cast_le (K := ℝ)).1 (by push_cast; exact q0)
  obtain ⟨l, t, el, bl⟩ := ib_log hf hq (le_trans (by norm_num) q0') (fun h e => ib_not_ten q0' h e)
  have ls : |Real.log s| ≤ 7 := by
    have h1 := Real.log_le_sub_one_of_pos (show (0:ℝ) < s by linarith)
    have h2 := Real.one_sub_inv_le_log_of_pos (show (0:ℝ) < s by linarith)
    have h3 : s⁻¹ ≤ 8 := by rw [inv_le_comm₀ (by linarith) (by norm_num)]; linarith
    exact abs_le.2 ⟨by linarith, by linarith⟩
  have lq : |Real.log q| ≤ 8 := by
    have := abs_add_le (Real.log q - Real.log s) (Real.log s)
    rw [sub_add_cancel] at this
    norm_num at d5 this ⊢
    linarith
  have bl' : |(l:ℝ) - Real.log q| ≤ (40 + 5 * 8) * (1 / 10 ^ 7) := bl.trans (by gcongr)
  have l8 : |(l:ℝ)| ≤ 9 := by
    have := abs_add_le (l - Real.log q) (Real.log q)
    rw [sub_add_cancel] at this
    norm_num at bl' this ⊢
    linarith
  have l8' : |l| ≤ 9 := by exact_mod_cast l8
  have x5 : |1 - l| ≤ 2 ^ 4 := by
    have := abs_sub 1 l
    norm_num at this ⊢; linarith
  obtain ⟨zv, ev⟩ := (is_one (f := f)).sub (is_fin l t) (nov (x5.trans (by norm_num)))
  have e6 := rnd_all_real f (1 - l)
  have x5r := (Rat.cast_le (K := ℝ)).2 x5
  push_cast at e6 x5r
  have d6 : |((rnd f (1 - l) : ℚ) : ℝ) - (1 - l)| ≤ 20 / 10 ^ 7 := by
    refine e6.trans ?_
    have : (uro f : ℝ) * |1 - (l:ℝ)| + uro f / 1000 ≤ 1 / 10 ^ 7 * 2 ^ 4 + 1 / 10 ^ 7 / 1000 := by gcongr
    norm_num at this ⊢; linarith
  refine ⟨rnd f (1 - l), zv, ?_, ?_, ?_⟩
  · rw [el]; exact congrArg Except.ok ev
  · rw [← ev]; exact valid_sub _ _
  · have lT := gi_lT T1r T2r
    have hls : Real.log s = Real.log (1 - p) - Real.log (1 - T) := Real.log_div (by linarith) hT1.ne'
    have k5 := abs_le.1 d5
    have k6 := abs_le.1 d6
    have k7 := abs_le.1 bl'
    have k8 := abs_le.1 lT
    rw [hls] at k5
    refine abs_le.2 ⟨?_, ?_⟩ <;> norm_num at k5 k6 k7 k8 ⊢ <;> linarith

theorem gi_start (hf : f.exact = false) {p : ℚ} {zp : Bool} (hp : Valid (fin p zp : FV f)) (p0 : 1 / 2 ≤ p) (p1 : p ≤ 95 / 100) :
    ∃ (v : ℚ) (z : Bool), incomplete_gamma_inv_initial_val (i 1 : FV f) (fin p zp) = .ok (fin v z) ∧ Valid (fin v z : FV f) ∧
      |(v:ℝ) - -Real.log (1 - p)| ≤ 1 / 9 := by
  obtain ⟨T, eT, T1, T2⟩ := gi_t hf
  have hT : Valid (fin T false : FV f) := by rw [← eT]; exact valid_sub _ _
  have e0 : incomplete_gamma_inv_initial_val (i 1 : FV f) (fin p zp) = incomplete_gamma_inv_initial_val_2 (i 1) (fin p zp) (fin T false) := by
    unfold incomplete_gamma_inv_initial_val
    rw [if_neg (by
      intro h
      have := ((is_one (f := f)).lt_iff is_one).1 h
      exact absurd this (lt_irrefl _)), eT]
  rw [e0]
  rcases lt_or_ge p T with h | h
  · exact gi_init1 hf p0 p1 T1 T2 h
  · exact gi_init2 hf hp p0 p1 hT T1 T2 h

theorem gi_glue {a p v lg d1 r : FV f} (h1 : incomplete_gamma_inv_initial_val a p = .ok v) (h2 : lgamma a = .ok lg)
    (h3 : incomplete_gamma_inv_deriv_1 v a lg = .ok d1) (h4 : incomplete_gamma_inv_recur a p lg 35 v d1 = .ok r) :
    (do
      let iv ← incomplete_gamma_inv_initial_val a p
      let lg ← lgamma a
      incomplete_gamma_inv_begin iv a p lg) = .ok r := by
  have k3 : ∀ g : FV f → Res (FV f), g d1 = .ok r → (do
      let d1 ← incomplete_gamma_inv_deriv_1 v a lg
      g d1) = .ok r := fun g hg => by rw [h3]; exact hg
  have e : incomplete_gamma_inv_begin v a p lg = .ok r := k3 _ h4
  have k : ∀ g : FV f → FV f → Res (FV f), g v lg = .ok r → (do
      let iv ← incomplete_gamma_inv_initial_val a p
      let lg ← lgamma a
      g iv lg) = .ok r := fun g hg => by rw [h1, h2]; exact hg
  exact k (fun iv lg => incomplete_gamma_inv_begin iv a p lg) e

/-- C92: accuracy.  For every `p` with `1/2 ≤ p ≤ 0.95`, `incomplete_gamma_inv(1, p)` is finite and differs from the quantile
`-ln(1 - p)` of the exponential distribution by at most `(6350 u + 10^-13) / (1 - p)`, `u` the unit roundoff. -/
theorem C92_accuracy (hf : f.exact = false) (p : ℚ) (z : Bool) (hx : Valid (fin p z : FV f)) (p0 : 1 / 2 ≤ p) (p1 : p ≤ 95 / 100) :
    ∃ (r : ℚ) (w : Bool), incomplete_gamma_inv (i 1 : FV f) (fin p z) = .ok (fin r w) ∧
      |(r:ℝ) - -Real.log (1 - p)| ≤ (6350 * (1 / 2 ^ f.prec) + 1 / 10 ^ 13) / (1 - p) := by
  have p0r : (1 / 2 : ℝ) ≤ p := by have := (Rat.cast_le (K := ℝ)).2 p0; push_cast at this; exact this
  have p1r : (p:ℝ) ≤ 95 / 100 := by have := (Rat.cast_le (K := ℝ)).2 p1; push_cast at this; exact this
  have s0 : (0:ℝ) < 1 - p := by linarith
  obtain ⟨v, zv, ev, hv, bv⟩ := gi_start hf hx p0 p1
  set y : ℝ := -Real.log (1 - p) with hy
  have ye : 1 - Real.exp (-y) = p := by rw [hy, neg_neg, Real.exp_log s0]; ring
  have y0 : 69 / 100 ≤ y := by
    have h1 : Real.log (1 - p) ≤ Real.log (2⁻¹) := Real.log_le_log s0 (by linarith)
    rw [Real.log_inv] at h1
    have := Real.log_two_gt_d9
    rw [hy]; linarith
  have y3 : y ≤ 2996 / 1000 := by
    rw [hy, ← Real.log_inv, Real.log_le_iff_le_exp (by positivity)]
    have h1 : (1 - (p:ℝ))⁻¹ ≤ 20 := by rw [inv_le_comm₀ s0 (by norm_num)]; linarith
    refine h1.trans ?_
    have h2 := Real.exp_one_gt_d9
    have h3 := Real.add_one_le_exp (-(4 / 1000) : ℝ)
    have h4 : Real.exp (2996 / 1000) = Real.exp 1 ^ 3 * Real.exp (-(4 / 1000)) := by
      rw [← Real.exp_nat_mul, ← Real.exp_add]; norm_num
    have h5 : (2.7182818283 : ℝ) ^ 3 ≤ Real.exp 1 ^ 3 := by gcongr
    have h6 : (0:ℝ) ≤ Real.exp 1 ^ 3 := by positivity
    rw [h4]
    have h7 : (20085 / 1000 : ℝ) ≤ Real.exp 1 ^ 3 := le_trans (by norm_num) h5
    have h8 : (996 / 1000 : ℝ) ≤ Real.exp (-(4 / 1000)) := le_trans (by norm_num) h3
    have := mul_le_mul h7 h8 (by norm_num) h6
    linarith
  have bv' := abs_le.1 bv
  obtain ⟨D, eD, D1, D2, hD⟩ := gi_deriv hf hv ((Rat.cast_le (K := ℝ)).1 (by push_cast; linarith))
    ((Rat.cast_le (K := ℝ)).1 (by push_cast; linarith))
  obtain ⟨r, w, er, br⟩ := gi_all (zp := z) hf y0 y3 ye p1 hv bv hD D1 D2
  refine ⟨r, w, ?_, by rw [← uro_eq]; exact br⟩
  have i1 := is_one (f := f)
  have m1 : (limMin : FV f) = fin (minNormal f) false := rfl
  have mn := minNormal_le' f
  have s1 := i1.sub (is_fin (f := f) p z) (nov (le_trans (b := 2) (abs_le.2 ⟨by linarith, by linarith⟩) (by norm_num)))
  have half : Rep f (1 / 32 : ℚ) := by
    have := rep_pow2 (f := f) (e := -5) (by have := emin_neg f; rcases f with ⟨⟨⟩, ⟨⟩⟩ <;> decide +kernel)
    rwa [show pow2 (-5) = 1 / 32 by norm_num [pow2_eq]] at this
  have r1 : 1 / 32 ≤ rnd f (1 - p) := le_rnd_of_rep half (by linarith)
  have o : (i 1 : FV f) = fin 1 false := by simp
  unfold incomplete_gamma_inv incomplete_gamma_inv_check
  rw [if_neg (by rw [o]; simp [any_nan]), if_neg (by
      intro h
      have := ((is_fin (f := f) p z).lt_iff (is_fin (minNormal f) false)).1 h
      exact absurd (lt_of_lt_of_le this mn) (not_lt.2 (le_trans (by norm_num) p0))),
    if_neg (by
      intro h
      have := (i1.lt_iff (is_fin (f := f) p z)).1 h
      linarith),
    if_neg (by
      intro h
      have := (s1.fabs.lt_iff (is_fin (f := f) (minNormal f) false)).1 h
      rw [abs_of_pos (lt_of_lt_of_le (by norm_num) r1)] at this
      exact absurd (lt_of_lt_of_le this mn) (not_lt.2 (le_trans (by norm_num) r1))),
    if_neg (by
      intro h
      have := (i1.lt_iff (is_fin (f := f) (minNormal f) false)).1 h
      exact absurd (lt_of_lt_of_le this mn) (by norm_num))]
  have lg : lgamma (i 1 : FV f) = .ok (fin 0 false) := by rw [o]; exact lgamma_one _
  exact gi_glue ev lg eD er

/-- C92, backward: the exact distribution function `1 - exp(-r)` of the returned value differs from `p` by at most
`6400 u + 2/10^13`. -/
theorem C92_backward (hf : f.exact = false) (p : ℚ) (z : Bool) (hx : Valid (fin p z : FV f)) (p0 : 1 / 2 ≤ p) (p1 : p ≤ 95 / 100) :
    ∃ (r : ℚ) (w : Bool), incomplete_gamma_inv (i 1 : FV f) (fin p z) = .ok (fin r w) ∧
      |1 - Real.exp (-r) - p| ≤ 6400 * (1 / 2 ^ f.prec) + 2 / 10 ^ 13 := by
  obtain ⟨r, w, e, b⟩ := C92_accuracy hf p z hx p0 p1
  refine ⟨r, w, e, ?_⟩
  rw [← uro_eq] at b ⊢
  have u0 := uro_pos_real f
  have u1 := uro_le f
  have p1r : (p:ℝ) ≤ 95 / 100 := by have := (Rat.cast_le (K := ℝ)).2 p1; push_cast at this; exact this
  have s0 : (0:ℝ) < 1 - p := by linarith
  set y : ℝ := -Real.log (1 - p) with hy
  set A : ℝ := 6350 * uro f + 1 / 10 ^ 13 with hA
  have A0 : 0 ≤ A := by positivity
  have ye : Real.exp (-y) = 1 - p := by rw [hy, neg_neg, Real.exp_log s0]
  obtain ⟨h, hX, hh⟩ := gi_slope r y
  obtain ⟨h1, h2⟩ := hh _ b
  have small : A / (1 - p) ≤ 77 / 10000 := by
    rw [div_le_iff₀ s0, hA]
    norm_num at u1 ⊢
    linarith
  have h3 : h ≤ (1 - p) * (10078 / 10000) := by
    refine h2.trans ?_
    rw [show -(y - A / (1 - p)) = -y + A / (1 - p) by ring, Real.exp_add, ye]
    have : Real.exp (A / (1 - p)) ≤ 10078 / 10000 := by
      refine (Real.exp_le_exp.2 small).trans ?_
      have := exp_le_inv (s := 77 / 10000) (t := 77 / 10000) (B := 10078 / 10000) (by norm_num) (by norm_num) (by norm_num) (by decide +kernel)
      push_cast at this; exact this
    gcongr
  have h0 : 0 ≤ h := (Real.exp_pos _).le.trans h1
  have k : 1 - Real.exp (-r) - p = h * (r - y) := by rw [← hX, ye]; ring
  rw [k, abs_mul, abs_of_nonneg h0]
  calc h * |(r:ℝ) - y| ≤ (1 - p) * (10078 / 10000) * (A / (1 - p)) := by gcongr
    _ = 10078 / 10000 * A := by field_simp
    _ ≤ _ := by rw [hA]; norm_num; linarith

/-- C92_accuracy for a concrete argument: the 0.75 quantile in `double` is within `10^-11` of `ln 4`. -/
example : ∃ (r : ℚ) (w : Bool), incomplete_gamma_inv (i 1 : FV binary64) (fin (3 / 4) false) = .ok (fin r w) ∧
    |(r:ℝ) - Real.log 4| ≤ 1 / 10 ^ 11 := by
  obtain ⟨r, w, e, b⟩ := C92_accuracy (f := binary64) rfl (3 / 4) false (by decide +kernel) (by norm_num) (by norm_num)
  refine ⟨r, w, e, ?_⟩
  push_cast at b
  rw [show (1 - 3 / 4 : ℝ) = 4⁻¹ by norm_num, Real.log_inv, neg_neg] at b
  refine b.trans ?_
  norm_num [Fmt.prec, FTy.prec]

/-- C92_backward for a concrete argument: the median in `float`. -/
example : ∃ (r : ℚ) (w : Bool), incomplete_gamma_inv (i 1 : FV binary32) (fin (1 / 2) false) = .ok (fin r w) ∧
    |1 - Real.exp (-r) - 1 / 2| ≤ 4 / 10 ^ 4 := by
  obtain ⟨r, w, e, b⟩ := C92_backward (f := binary32) rfl (1 / 2) false (by decide +kernel) (by norm_num) (by norm_num)
  refine ⟨r, w, e, ?_⟩
  push_cast at b
  refine b.trans ?_
  norm_num [Fmt.prec, FTy.prec]

end Gcem.Props
