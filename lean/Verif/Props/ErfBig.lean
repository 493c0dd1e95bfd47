import Verif.Props.ErfAcc
import Verif.Analysis.AtanSeries

/-!
# C71: accuracy of `erf`, large arguments and summary
-/

namespace Gcem.Props
open Gcem FV
variable {f : Fmt}

/-! ## the complementary error function -/

theorem erfc_le {x : ℝ} (hx : 20999 / 10000 ≤ x) :
    2 * (Real.exp (-x ^ 2) / Real.sqrt Real.pi) / ecR 1 x ≤ 2687 / 10000 * Real.exp (-x ^ 2) := by
  have hs : (17724 / 10000 : ℝ) ≤ Real.sqrt Real.pi := by
    apply Real.le_sqrt_of_sq_le
    have := Real.pi_gt_d6
    norm_num; linarith
  have hR := ecR_ge 1 le_rfl x
  have hE := Real.exp_pos (-x ^ 2)
  rw [div_le_iff₀ (ecR_pos 1 x), mul_div_assoc', div_le_iff₀ (by linarith)]
  have h1 : (41998 / 10000 : ℝ) ≤ ecR 1 x := by linarith
  have h2 : (41998 / 10000 : ℝ) * (17724 / 10000) ≤ ecR 1 x * Real.sqrt Real.pi := mul_le_mul h1 hs (by norm_num) (by linarith)
  have h3 := mul_le_mul_of_nonneg_left h2 hE.le
  nlinarith

theorem exp_decay {s A B : ℝ} (hs : 44 / 10 ≤ s) (hB : 0 ≤ B) (hA : B ≤ A) : (A + B * s) * Real.exp (-s) ≤ (A + 44 / 10 * B) / 64 := by
  have h1 : (64:ℝ) ≤ Real.exp (44 / 10) := by
    have h := Real.add_one_le_exp (11 / 100 : ℝ)
    have e : Real.exp (44 / 10) = Real.exp (11 / 100) ^ 40 := by rw [← Real.exp_nat_mul]; norm_num
    rw [e]
    refine le_trans ?_ (pow_le_pow_left₀ (by norm_num) h 40)
    norm_num
  have h2 := Real.add_one_le_exp (s - 44 / 10)
  have e : Real.exp s = Real.exp (44 / 10) * Real.exp (s - 44 / 10) := by rw [← Real.exp_add]; congr 1; ring
  have h3 : 64 * (s - 44 / 10 + 1) ≤ Real.exp s := by
    rw [e]; exact mul_le_mul h1 h2 (by linarith) (by linarith)
  rw [Real.exp_neg, ← div_eq_mul_inv, div_le_div_iff₀ (Real.exp_pos s) (by norm_num)]
  have h4 := mul_le_mul_of_nonneg_left h3 (show 0 ≤ A + 44 / 10 * B by linarith)
  nlinarith [mul_nonneg (show 0 ≤ A by linarith) (show 0 ≤ s - 44 / 10 by linarith), mul_nonneg hB (show 0 ≤ s - 44 / 10 by linarith)]

/-! ## the final subtraction -/

theorem erf_sub {pv : FV f} {p : ℚ} {P δ : ℝ} (hp : Is pv p) (p0 : 0 ≤ p) (p1 : p ≤ 1 / 10) (h : |(p:ℝ) - P| ≤ δ) :
    ∃ r, (i 1 - pv : FV f) = fin r false ∧ 0 < r ∧ r ≤ 1 ∧ |(r:ℝ) - (1 - P)| ≤ uro f + δ := by
  have i1 : Is (i 1 : FV f) 1 := by have := is_i (f := f) (n := 1) (by norm_num); push_cast at this; exact this
  have h1 : |1 - p| ≤ 1 := by rw [abs_le]; constructor <;> linarith
  have iS := i1.sub hp (nov (h1.trans (by norm_num)))
  have hn : minNormal f ≤ |1 - p| := by
    rw [abs_of_pos (by linarith)]
    have := minNormal_le' f
    have : (1 / 2 ^ 125 : ℚ) ≤ 9 / 10 := by norm_num
    linarith
  have he := (Rat.cast_le (K := ℝ)).2 (rnd_err_rel (f := f) hn)
  have hr1 : rnd f (1 - p) ≤ 1 := rnd_le_of_rep rep_one (by linarith)
  have hr0 : 0 < rnd f (1 - p) := by
    have := rnd_pos (f := f) (q := 1 - p) (by rwa [abs_of_pos (by linarith)] at hn)
    linarith [minNormal_pos f]
  obtain ⟨w, hw⟩ := iS
  have hv : Valid (i 1 - pv : FV f) := valid_sub _ _
  rw [hw] at hv
  refine ⟨_, by rw [hw, hv.z_false hr0.ne'], hr0, hr1, ?_⟩
  have hu := uro_pos_real f
  rw [abs_of_pos (show 0 < 1 - p by linarith)] at he
  push_cast at he
  have p0r : (0:ℝ) ≤ p := by exact_mod_cast p0
  generalize ((rnd f (1 - p) : ℚ) : ℝ) = r at *
  have e : r - (1 - P) = (r - (1 - p)) + (P - p) := by ring
  rw [e]
  refine (abs_add_le _ _).trans (add_le_add (he.trans ?_) (by rw [abs_sub_comm]; exact h))
  nlinarith

theorem erf_two_x {x : ℚ} {z : Bool} (hx : Valid (fin x z : FV f)) (x0 : 0 < x) (x1 : x ≤ 2 ^ 120) : Is (i 2 * fin x z : FV f) (2 * x) := by
  have h2 : Is (i 2 : FV f) 2 := by have := is_i (f := f) (n := 2) (by norm_num); push_cast at this; exact this
  have := h2.mul (is_fin (f := f) x z) (nov (by rw [abs_of_pos (by linarith)]; norm_num at x1 ⊢; linarith))
  rwa [rep_double hx.rep] at this

/-- moderate arguments -/
theorem erf_large_mid (hf : f.exact = false) {x : ℚ} {z : Bool} (hx : Valid (fin x z : FV f)) (h1 : 20999 / 10000 ≤ x) (h2 : x ^ 2 ≤ 82) :
    ∃ r, erf_cf_large_main (fin x z : FV f) = .ok (fin r false) ∧ 0 < r ∧ r ≤ 1 ∧ |(r:ℝ) - erfR x| ≤ 5 / 2 * uro f := by
  have hu := uro_pos_real f
  have hu1 := uro_le f
  have hu64 := uro_64 hf
  have x0 : 0 < x := by linarith
  have x10 : x ≤ 10 := by nlinarith
  have h1r : (20999 / 10000 : ℝ) ≤ x := by have := (Rat.cast_le (K := ℝ)).2 h1; push_cast at this; exact this
  have h2r : (x:ℝ) ^ 2 ≤ 82 := by have := (Rat.cast_le (K := ℝ)).2 h2; push_cast at this; exact this
  have sx : (44 / 10 : ℝ) ≤ (x:ℝ) ^ 2 := by nlinarith
  have iy := erf_two_x hx x0 (x10.trans (by norm_num))
  obtain ⟨k, iK, yk, eK⟩ := erf_large_cf (x := (x:ℝ)) (S := 567 / 5000) iy (rep_double hx.rep) (by push_cast; ring) (by linarith)
    (by norm_num; linarith) (by nlinarith) rfl (ecH_ok hf)
  obtain ⟨e, G, e1, iG, rG, G0, G1, eG⟩ := erf_factor hf (z := z) (X := (x:ℝ) ^ 2) le_rfl (by linarith) h2r
  have i2 : Is (i 2 : FV f) 2 := by have := is_i (f := f) (n := 2) (by norm_num); push_cast at this; exact this
  have i2G : Is (i 2 * (e / L SQRT_PI)) (2 * G) := by
    have := i2.mul iG (nov (by rw [abs_of_pos (by linarith)]; norm_num; linarith))
    rwa [rep_double rG] at this
  have k0 : 0 < k := by linarith
  have qhi : 2 * G / k ≤ 1 := by rw [div_le_iff₀ k0]; linarith
  have q0 : 0 < 2 * G / k := by positivity
  have iP := i2G.div iK k0.ne' (nov (by rw [abs_of_pos q0]; exact qhi.trans (by norm_num)))
  have Rp := ecR_pos 1 (x:ℝ)
  have gp : 0 < Real.exp (-(x:ℝ) ^ 2) / Real.sqrt Real.pi := by have := sqrtPi_pos.1; positivity
  have hK : RelR (k : ℝ) (ecR 1 x) (1686 / 10 * uro f) := by
    refine RelR.mono (ε := ((5 / 2 * uro f + 9 / 10 ^ 18 : ℚ) : ℝ)) eK Rp ?_
    push_cast; norm_num at hu64 ⊢; linarith
  have h2G : RelR ((2 * G : ℚ) : ℝ) (2 * (Real.exp (-(x:ℝ) ^ 2) / Real.sqrt Real.pi)) ((1345 / 10 + 5003 / 1000 * (x:ℝ) ^ 2) * uro f) := by
    have c2 : RelR 2 2 0 := by unfold RelR; simp
    have := c2.mul eG (by norm_num) gp
    push_cast
    refine this.mono (by positivity) (le_of_eq (by ring))
  have hQ := RelR.div' h2G hK (by positivity) Rp (by linarith)
  have hc := erfc_le h1r
  have hfin : erfR x = 1 - 2 * (Real.exp (-(x:ℝ) ^ 2) / Real.sqrt Real.pi) / ecR 1 x := erfR_eq_tail _
  have Ppos : 0 < 2 * (Real.exp (-(x:ℝ) ^ 2) / Real.sqrt Real.pi) / ecR 1 x := by positivity
  have dec := exp_decay (A := 30462 / 100) (B := 502 / 100) sx (by norm_num) (by norm_num)
  have t1 : ((1345 / 10 + 5003 / 1000 * (x:ℝ) ^ 2) * (uro f : ℝ) + 1686 / 10 * uro f) / (1 - 1686 / 10 * uro f) ≤ (3035 / 10 + 501 / 100 * (x:ℝ) ^ 2) * uro f := by
    rw [div_le_iff₀ (by linarith)]
    have k1 : (1:ℝ) - 2 / 100000 ≤ 1 - 1686 / 10 * uro f := by linarith
    have k2 : (1345 / 10 + 5003 / 1000 * (x:ℝ) ^ 2 + 1686 / 10) ≤ (3035 / 10 + 501 / 100 * (x:ℝ) ^ 2) * (1 - 1686 / 10 * uro f) := by
      refine le_trans ?_ (mul_le_mul_of_nonneg_left k1 (by positivity))
      nlinarith
    have := mul_le_mul_of_nonneg_right k2 hu.le
    linarith
  have hQ2 := hQ.mono Ppos t1
  have iqr : ((2 * G : ℚ) : ℝ) / k = ((2 * G / k : ℚ) : ℝ) := by push_cast; rfl
  rw [iqr] at hQ2
  have hr := (Rat.cast_le (K := ℝ)).2 (rnd_err_all (f := f) (2 * G / k))
  rw [abs_of_pos q0] at hr
  have hm := (Rat.cast_le (K := ℝ)).2 (erf_emin' f)
  have p0 : 0 ≤ rnd f (2 * G / k) := rnd_nonneg q0.le
  clear hQ h2G eG eK hK i2 iG i2G iK iy t1
  generalize rnd f (2 * G / k) = p at *
  generalize 2 * G / k = q at *
  push_cast at hr hm
  unfold RelR at hQ2
  have hqle := (abs_le.1 hQ2).2
  generalize 2 * (Real.exp (-(x:ℝ) ^ 2) / Real.sqrt Real.pi) / ecR 1 x = P at *
  generalize Real.exp (-(x:ℝ) ^ 2) = E at *
  generalize (x:ℝ) ^ 2 = s at *
  generalize hU : (uro f : ℝ) = u at *
  generalize ((pow2 f.emin : ℚ) : ℝ) = m at *
  have w0 : (3035 / 10 + 501 / 100 * s) * u ≤ 1 / 1000 := by nlinarith
  have hP : |(p:ℝ) - P| ≤ 138 / 100 * u + u / 1000 := by
    have e : (p:ℝ) - P = (p - q) + (q - P) := by ring
    rw [e]
    refine (abs_add_le _ _).trans ((add_le_add hr hQ2).trans ?_)
    have k1 : u * (q:ℝ) ≤ u * (1001 / 1000 * P) := mul_le_mul_of_nonneg_left (by nlinarith) hu.le
    have k2 : (30462 / 100 + 502 / 100 * s) * P ≤ (30462 / 100 + 502 / 100 * s) * (2687 / 10000 * E) :=
      mul_le_mul_of_nonneg_left hc (by linarith)
    have k3 : (30462 / 100 + 502 / 100 * s) * P ≤ 1372 / 1000 := by linarith
    have k4 := mul_le_mul_of_nonneg_right k3 hu.le
    have k5 : 0 ≤ s * P * u := by positivity
    nlinarith [mul_pos Ppos hu]
  have hp1 : p ≤ 1 / 10 := by
    have : (p:ℝ) ≤ 1 / 10 := by
      have := (abs_le.1 hP).2
      have k2 : (30462 / 100) * P ≤ 30462 / 100 * (2687 / 10000 * E) := by linarith
      nlinarith
    have h := (Rat.cast_le (K := ℝ)).1 (show ((p:ℚ):ℝ) ≤ ((1 / 10 : ℚ) : ℝ) by push_cast; exact this)
    exact h
  obtain ⟨r, r1, r2, r3, r4⟩ := erf_sub iP p0 hp1 hP
  refine ⟨r, ?_, r2, r3, ?_⟩
  · unfold erf_cf_large_main
    rw [e1]
    simp only [bind, Except.bind]
    rw [r1]
  · rw [hfin]
    refine r4.trans ?_
    rw [hU]; linarith

/-- very large arguments -/
theorem erf_large_far (hf : f.exact = false) {x : ℚ} {z : Bool} (hx : Valid (fin x z : FV f)) (x0 : 0 < x) (h1 : 82 ≤ x ^ 2) (h2 : x ≤ 2 ^ 31) :
    ∃ r, erf_cf_large_main (fin x z : FV f) = .ok (fin r false) ∧ 0 < r ∧ r ≤ 1 ∧ |(r:ℝ) - erfR x| ≤ 5 / 2 * uro f := by
  have hu := uro_pos_real f
  have hu1 := uro_le f
  have hu64 := uro_64 hf
  have x9 : 9 ≤ x := by nlinarith
  have x9r : (9:ℝ) ≤ x := by exact_mod_cast x9
  have h1r : (82:ℝ) ≤ (x:ℝ) ^ 2 := by have := (Rat.cast_le (K := ℝ)).2 h1; push_cast at this; exact this
  have h2q : x ^ 2 ≤ 2 ^ 62 := by nlinarith
  have h2r : (x:ℝ) ^ 2 ≤ 2 ^ 62 := by have := (Rat.cast_le (K := ℝ)).2 h2q; push_cast at this; exact this
  have iy := erf_two_x hx x0 (h2.trans (by norm_num))
  obtain ⟨k, iK, yk, eK⟩ := erf_large_cf (x := (x:ℝ)) (S := 567 / 5000) iy (rep_double hx.rep) (by push_cast; ring) (by linarith)
    (by norm_num at h2 ⊢; linarith) (by nlinarith) rfl (ecH_ok hf)
  obtain ⟨b, iB, rB, b0, bE⟩ := erf_square (f := f) (z := z) (X := (x:ℝ) ^ 2) le_rfl (by linarith) (h2r.trans (by norm_num))
  have bE' := abs_le.1 bE
  have b80 : 80 ≤ b := by
    have : (80:ℝ) ≤ b := by nlinarith
    exact_mod_cast this
  have b63 : b ≤ 2 ^ 62 + 2 ^ 50 := by
    have : (b:ℝ) ≤ 2 ^ 62 + 2 ^ 50 := by
      have k1 : 1001 / 1000 * (uro f : ℝ) * (x:ℝ) ^ 2 ≤ 1001 / 1000 * (1 / 16777216) * 2 ^ 62 :=
        mul_le_mul (by linarith) h2r (by positivity) (by norm_num)
      norm_num at k1 h2r ⊢; linarith
    have h := (Rat.cast_le (K := ℝ)).1 (show ((b:ℚ):ℝ) ≤ ((2 ^ 62 + 2 ^ 50 : ℚ) : ℝ) by push_cast; exact this)
    exact h
  obtain ⟨v, hv, G, iG, G0, G1⟩ : ∃ v, exp (-(fin x z) * fin x z : FV f) = .ok v ∧ ∃ G, Is v G ∧ 0 ≤ G ∧ G ≤ 1 / 2 ^ 100 := by
    rw [neg_mul']
    obtain ⟨w, hw⟩ := iB
    have hvv : Valid (fin x z * fin x z : FV f) := valid_mul _ _
    rw [hw] at hvv ⊢
    have hv' := hvv.neg
    rw [neg_fin] at hv' ⊢
    obtain ⟨-, w1, w2⟩ := wholeOf_bounds (-b)
    obtain ⟨ww, hok⟩ := exp_large_ok hf hv' (by rw [abs_neg, abs_of_nonneg b0]; linarith) (by
      constructor
      · have : ((-2 ^ 63 : ℤ) : ℚ) ≤ wholeOf (-b) := by push_cast; norm_num at *; linarith
        exact_mod_cast this
      · have : (wholeOf (-b) : ℚ) ≤ ((2 ^ 63 - 1 : ℤ) : ℚ) := by push_cast; norm_num at *; linarith
        exact_mod_cast this)
    refine ⟨_, hok, ?_⟩
    obtain ⟨c, c0, c8, p, p0, p1, hval⟩ := exp_neg_le hf hv' (by linarith) hok (n := 79) (by push_cast; linarith) (b := 1 / 2 ^ 103)
      (rep_inv_pow2 (by norm_num)) (by norm_num) (by norm_num) (Or.inl (by decide +kernel))
    rw [hval]
    have r0 := rnd_nonneg (f := f) p0
    have r1 := rnd_le_of_rep (f := f) (rep_inv_pow2 (k := 103) (by norm_num)) p1
    refine ⟨_, is_fin _ _, rnd_nonneg (mul_nonneg r0 c0.le), ?_⟩
    refine rnd_le_of_rep (rep_inv_pow2 (by norm_num)) ?_
    calc rnd f p * c ≤ 1 / 2 ^ 103 * 8 := mul_le_mul r1 c8 c0.le (by norm_num)
      _ = _ := by norm_num
  obtain ⟨c, c1, c2, c3, -⟩ := sqrtPi_rel hf
  have c0 : 0 < c := by linarith
  have ic : Is (L SQRT_PI : FV f) c := ⟨_, c1⟩
  have a0 : 0 ≤ G / c := by positivity
  have a1 : G / c ≤ 1 / 2 ^ 100 := by rw [div_le_iff₀ c0]; norm_num at G1 ⊢; linarith
  have ia := iG.div ic c0.ne' (nov (by rw [abs_of_nonneg a0]; exact a1.trans (by norm_num)))
  have ra0 := rnd_nonneg (f := f) a0
  have ra1 := rnd_le_of_rep (f := f) (rep_inv_pow2 (k := 100) (by norm_num)) a1
  generalize rnd f (G / c) = A at *
  have i2 : Is (i 2 : FV f) 2 := by have := is_i (f := f) (n := 2) (by norm_num); push_cast at this; exact this
  have d0 : 0 ≤ 2 * A := by positivity
  have d1 : 2 * A ≤ 1 / 2 ^ 99 := by norm_num at ra1 ⊢; linarith
  have id := i2.mul ia (nov (by rw [abs_of_nonneg d0]; exact d1.trans (by norm_num)))
  have rd0 := rnd_nonneg (f := f) d0
  have rd1 := rnd_le_of_rep (f := f) (rep_inv_pow2 (k := 99) (by norm_num)) d1
  generalize rnd f (2 * A) = D at *
  have k0 : 0 < k := by linarith
  have q0 : 0 ≤ D / k := by positivity
  have q1 : D / k ≤ 1 / 2 ^ 99 := by rw [div_le_iff₀ k0]; norm_num at rd1 ⊢; linarith
  have iP := id.div iK k0.ne' (nov (by rw [abs_of_nonneg q0]; exact q1.trans (by norm_num)))
  have rp0 := rnd_nonneg (f := f) q0
  have rp1 := rnd_le_of_rep (f := f) (rep_inv_pow2 (k := 99) (by norm_num)) q1
  have hc := erfc_le (x := (x:ℝ)) (by linarith)
  have Ppos : 0 < 2 * (Real.exp (-(x:ℝ) ^ 2) / Real.sqrt Real.pi) / ecR 1 x := by
    have := sqrtPi_pos.1
    have := ecR_pos 1 (x:ℝ)
    positivity
  have hE : Real.exp (-(x:ℝ) ^ 2) ≤ 1 / 2 ^ 99 := by
    have h3 : Real.exp (-(x:ℝ) ^ 2) ≤ Real.exp (-82) := Real.exp_le_exp.2 (by linarith)
    refine h3.trans ?_
    have e1 : Real.exp (-82) = (Real.exp 1 ^ 82)⁻¹ := by rw [Real.exp_neg, ← Real.exp_nat_mul]; norm_num
    rw [e1, ← one_div]
    apply one_div_le_one_div_of_le (by positivity)
    refine le_trans ?_ (pow_le_pow_left₀ (by norm_num) Real.exp_one_gt_d9.le 82)
    norm_num
  have hfin : erfR x = 1 - 2 * (Real.exp (-(x:ℝ) ^ 2) / Real.sqrt Real.pi) / ecR 1 x := erfR_eq_tail _
  have rp1r := (Rat.cast_le (K := ℝ)).2 rp1
  have rp0r : (0:ℝ) ≤ (rnd f (D / k) : ℚ) := by exact_mod_cast rp0
  push_cast at rp1r
  have hP : |((rnd f (D / k) : ℚ) : ℝ) - 2 * (Real.exp (-(x:ℝ) ^ 2) / Real.sqrt Real.pi) / ecR 1 x| ≤ 1 / 2 ^ 99 := by
    rw [abs_le]; norm_num at rp1r hE ⊢; constructor <;> linarith
  obtain ⟨r, r1, r2, r3, r4⟩ := erf_sub iP rp0 (rp1.trans (by norm_num)) hP
  refine ⟨r, ?_, r2, r3, ?_⟩
  · unfold erf_cf_large_main
    rw [hv]
    simp only [bind, Except.bind]
    rw [r1]
  · rw [hfin]
    refine r4.trans ?_
    norm_num at hu64 ⊢; linarith

theorem erf_large_acc (hf : f.exact = false) {x : ℚ} {z : Bool} (hx : Valid (fin x z : FV f)) (h1 : 20999 / 10000 ≤ x) (h2 : x ≤ 2 ^ 31) :
    ∃ r, erf_cf_large_main (fin x z : FV f) = .ok (fin r false) ∧ 0 < r ∧ r ≤ 1 ∧ |(r:ℝ) - erfR x| ≤ 5 / 2 * uro f := by
  rcases le_total (x ^ 2) 82 with h | h
  · exact erf_large_mid hf hx h1 h
  · exact erf_large_far hf hx (by linarith) h h2

/-! ## C71 -/

theorem erfR_neg (x : ℝ) : erfR (-x) = -erfR x := by
  unfold erfR
  have h := intervalIntegral.integral_comp_neg (a := 0) (b := x) (fun t => Real.exp (-t ^ 2))
  simp only [neg_sq] at h
  rw [show (-(0:ℝ)) = 0 from _root_.neg_zero] at h
  rw [intervalIntegral.integral_symm (-x) 0, ← h]; ring

theorem erfR_mono {x y : ℝ} (h : x ≤ y) : erfR x ≤ erfR y := by
  unfold erfR
  have hc : ∀ a b : ℝ, IntervalIntegrable (fun t => Real.exp (-t ^ 2)) MeasureTheory.volume a b :=
    fun a b => (by fun_prop : Continuous fun t : ℝ => Real.exp (-t ^ 2)).intervalIntegrable a b
  rw [← intervalIntegral.integral_add_adjacent_intervals (hc 0 x) (hc x y)]
  have h1 : 0 ≤ ∫ t in x..y, Real.exp (-t ^ 2) := intervalIntegral.integral_nonneg h fun t _ => (Real.exp_pos _).le
  have h2 : 0 ≤ 2 / Real.sqrt Real.pi := by positivity
  nlinarith

theorem d_21' (hf : f.exact = false) : ∃ q : ℚ, (d 2.1 : FV f) = fin q false ∧ 20999 / 10000 ≤ q ∧ q ≤ 2100001 / 1000000 := by
  obtain ⟨ty, ex⟩ := f
  cases (show ex = false from hf)
  cases ty
  · exact ⟨4404019/2097152, by decide +kernel, by norm_num, by norm_num⟩
  · exact ⟨4728779608739021/2251799813685248, by decide +kernel, by norm_num, by norm_num⟩
  · exact ⟨4728779608739021/2251799813685248, by decide +kernel, by norm_num, by norm_num⟩

/-- the constants of C71: the error of `erf` is at most `erfK |x|` unit roundoffs -/
def erfK (x : ℚ) : ℚ := if x ≤ 1 / 2 then 144 else if x ≤ 1 then 186 else if x ≤ 3 / 2 then 920 else if x ≤ 2100001 / 1000000 then 80600 else 13 / 5

theorem erfR_ge {x : ℝ} (hx : 20999 / 10000 ≤ x) : 99 / 100 ≤ erfR x := by
  have hfin : erfR x = 1 - 2 * (Real.exp (-x ^ 2) / Real.sqrt Real.pi) / ecR 1 x := erfR_eq_tail _
  have hc := erfc_le hx
  have dec := exp_decay (A := 1) (B := 0) (s := x ^ 2) (by nlinarith) le_rfl zero_le_one
  rw [hfin]
  norm_num at dec
  linarith

theorem erf_pos_acc (hf : f.exact = false) {x : ℚ} {z : Bool} (hx : Valid (fin x z : FV f)) (hn : minNormal f ≤ x) (h2 : x ≤ 2 ^ 31) :
    ∃ r, erf_begin (fin x z : FV f) = .ok (fin r false) ∧ 0 < r ∧ |(r:ℝ) - erfR x| ≤ erfK x * uro f * erfR x := by
  have x0 : 0 < x := lt_of_lt_of_le (minNormal_pos f) hn
  have hu := uro_pos_real f
  obtain ⟨c, hc, c1, c2⟩ := d_21' hf
  unfold erf_begin
  rw [hc]
  by_cases hb : c < x
  · rw [if_pos (by rw [gt_iff, fin_lt]; exact hb)]
    obtain ⟨r, r1, r2, -, r4⟩ := erf_large_acc hf hx (by linarith) h2
    refine ⟨r, r1, r2, r4.trans ?_⟩
    have hE := erfR_ge (x := (x:ℝ)) (by
      have := (Rat.cast_le (K := ℝ)).2 (c1.trans hb.le); push_cast at this; exact this)
    have hk : (13 / 5 : ℚ) ≤ erfK x := by
      unfold erfK; split_ifs <;> norm_num
    have hkr : (13 / 5 : ℝ) ≤ erfK x := by have := (Rat.cast_le (K := ℝ)).2 hk; push_cast at this; exact this
    have k1 : (13 / 5 : ℝ) * uro f * (99 / 100) ≤ erfK x * uro f * erfR x :=
      mul_le_mul (mul_le_mul_of_nonneg_right hkr hu.le) hE (by norm_num) (mul_nonneg (by linarith) hu.le)
    linarith
  · rw [if_neg (by rw [gt_iff, fin_lt]; exact hb)]
    push Not at hb
    by_cases a1 : x ≤ 1 / 2
    · obtain ⟨r, r1, r2, r3⟩ := erf_small_acc hf hx hn (X := 1 / 4) (K := 11 / 2) (C := 144) (by nlinarith) (by norm_num) (by norm_num)
        (erOk_half hf) (by norm_num) (by norm_num) (by norm_num) (by norm_num)
      refine ⟨r, r1, r2, ?_⟩
      unfold erfK; rw [if_pos a1]; exact r3
    by_cases a2 : x ≤ 1
    · obtain ⟨r, r1, r2, r3⟩ := erf_small_acc hf hx hn (X := 1) (K := 443 / 10) (C := 186) (by nlinarith) (by norm_num) (by norm_num)
        (erOk_one hf) (by norm_num) (by norm_num) (by norm_num) (by norm_num)
      refine ⟨r, r1, r2, ?_⟩
      unfold erfK; rw [if_neg a1, if_pos a2]; exact r3
    by_cases a3 : x ≤ 3 / 2
    · obtain ⟨r, r1, r2, r3⟩ := erf_small_acc hf hx hn (X := 9 / 4) (K := 770) (C := 920) (by nlinarith) (by norm_num) (by norm_num)
        (erOk_three_halves hf) (by norm_num) (by norm_num) (by norm_num) (by norm_num)
      refine ⟨r, r1, r2, ?_⟩
      unfold erfK; rw [if_neg a1, if_neg a2, if_pos a3]; exact r3
    · obtain ⟨r, r1, r2, r3⟩ := erf_small_acc hf hx hn (X := 4411 / 1000) (K := 80000) (C := 80600) (by nlinarith) (by norm_num) (by norm_num)
        (erOk_all hf) (by norm_num) (by norm_num) (by norm_num) (by norm_num)
      refine ⟨r, r1, r2, ?_⟩
      unfold erfK; rw [if_neg a1, if_neg a2, if_neg a3, if_pos (hb.trans c2)]; exact r3

/-- C71: accuracy.  For every normal `x` with `|x| ≤ 2^31`, `erf(x)` is a finite value whose relative error is at most
144 unit roundoffs for `|x| ≤ 1/2`, 186 for `|x| ≤ 1`, 920 for `|x| ≤ 3/2`, 80600 for `|x| ≤ 2.100001` and 2.6 beyond. -/
theorem C71_accuracy (hf : f.exact = false) (x : ℚ) (z : Bool) (hx : Valid (fin x z : FV f)) (hn : minNormal f ≤ |x|) (h2 : |x| ≤ 2 ^ 31) :
    ∃ r, erf (fin x z : FV f) = .ok (fin r false) ∧ |(r:ℝ) - erfR x| ≤ erfK |x| * (1 / 2 ^ f.prec) * |erfR x| := by
  rw [← uro_eq, erf_nontiny hn]
  have ep : ∀ y : ℝ, 0 < y → 0 ≤ erfR y := fun y hy => by
    have := erfR_mono hy.le
    have e0 : erfR 0 = 0 := by simp [erfR]
    linarith
  rcases lt_or_ge x 0 with h | h
  · rw [if_pos (by rw [i_zero, fin_lt]; exact h)]
    rw [abs_of_neg h] at hn h2 ⊢
    have hv := hx.neg
    rw [neg_fin, if_neg h.ne] at hv ⊢
    obtain ⟨r, r1, r2, r3⟩ := erf_pos_acc hf hv hn h2
    rw [r1]
    refine ⟨-r, ?_, ?_⟩
    · simp [Except.map, neg_fin, r2.ne']
    · push_cast at r3 ⊢
      rw [erfR_neg] at r3
      have e1 : -(r:ℝ) - erfR x = -(r - -erfR x) := by ring
      have h3 : 0 ≤ erfR (-x) := ep _ (by have : (x:ℝ) < 0 := by exact_mod_cast h
                                          linarith)
      rw [erfR_neg] at h3
      rw [e1, abs_neg, abs_of_nonpos (by linarith : erfR (x:ℝ) ≤ 0)]
      exact r3
  · rw [if_neg (by rw [i_zero, fin_lt]; linarith)]
    rw [abs_of_nonneg h] at hn h2 ⊢
    obtain ⟨r, r1, r2, r3⟩ := erf_pos_acc hf hx hn h2
    refine ⟨r, r1, ?_⟩
    rw [abs_of_nonneg (ep _ (by have := lt_of_lt_of_le (minNormal_pos f) hn; exact_mod_cast this))]
    exact r3

/-- C71: for `2.100001 ≤ x ≤ 2^31` the result is moreover in `(0, 1]`. -/
theorem C71_range_large (hf : f.exact = false) (x : ℚ) (z : Bool) (hx : Valid (fin x z : FV f)) (h1 : 2100001 / 1000000 < x) (h2 : x ≤ 2 ^ 31) :
    ∃ r, erf (fin x z : FV f) = .ok (fin r false) ∧ 0 < r ∧ r ≤ 1 ∧ |(r:ℝ) - erfR x| ≤ 5 / 2 * (1 / 2 ^ f.prec) := by
  have hm := minNormal_lt_one f
  rw [← uro_eq, erf_nontiny (by rw [abs_of_pos (by linarith)]; linarith), if_neg (by rw [i_zero, fin_lt]; linarith)]
  obtain ⟨c, hc, c1, c2⟩ := d_21' hf
  unfold erf_begin
  rw [hc, if_pos (by rw [gt_iff, fin_lt]; linarith)]
  exact erf_large_acc hf hx (by linarith) h2

/-- C71 is FALSE as a statement of accuracy to a few units in the last place, and `erf` is not monotone: in each type
the result drops by more than 1000 unit roundoffs from the argument `2.1` to the next representable one, and the error at
`2.1` exceeds 1000 unit roundoffs. -/
theorem C71_jump (hf : f.exact = false) : ∃ x y r s : ℚ, x < y ∧ d 2.1 = (fin x false : FV f) ∧ Valid (fin y false : FV f) ∧
    erf (fin x false : FV f) = .ok (fin r false) ∧ erf (fin y false : FV f) = .ok (fin s false) ∧
    s + 1100 / 2 ^ f.prec ≤ r ∧ erfR x + 1000 / 2 ^ f.prec ≤ r := by
  have key : ∃ x y r s : ℚ, x < y ∧ d 2.1 = (fin x false : FV f) ∧ Valid (fin y false : FV f) ∧ 20999 / 10000 ≤ y ∧ y ≤ 3 ∧
      erf (fin x false : FV f) = .ok (fin r false) ∧ erf (fin y false : FV f) = .ok (fin s false) ∧ s + 1100 / 2 ^ f.prec ≤ r := by
    obtain ⟨ty, ex⟩ := f
    cases (show ex = false from hf)
    cases ty
    · exact ⟨4404019 / 2 ^ 21, 8808039 / 2 ^ 22, 16730965 / 16777216, 16727229 / 16777216, by decide +kernel⟩
    · exact ⟨4728779608739021 / 2 ^ 51, 4728779608739022 / 2 ^ 51, 2245090651224233 / 2251799813685248,
        561272662805909 / 562949953421312, by decide +kernel⟩
    · exact ⟨4728779608739021 / 2 ^ 51, 4728779608739021 / 2 ^ 51 + 1 / 2 ^ 62, 2298972826853003385 / 2305843009213693952,
        18391782614824025925 / 18446744073709551616, by decide +kernel⟩
  obtain ⟨x, y, r, s, h1, h2, h3, h4, h5, h6, h7, h8⟩ := key
  refine ⟨x, y, r, s, h1, h2, h3, h6, h7, h8, ?_⟩
  obtain ⟨s', s1, -, -, s4⟩ := erf_large_acc hf h3 h4 (by linarith)
  have hm := minNormal_lt_one f
  rw [erf_nontiny (by rw [abs_of_pos (by linarith)]; linarith), if_neg (by rw [i_zero, fin_lt]; linarith)] at h7
  unfold erf_begin at h7
  rw [h2, if_pos (by rw [gt_iff, fin_lt]; exact h1), s1] at h7
  simp only [Except.ok.injEq, fin.injEq, and_true] at h7
  subst h7
  have h9 : erfR x ≤ erfR y := erfR_mono (by exact_mod_cast h1.le)
  have h8r := (Rat.cast_le (K := ℝ)).2 h8
  push_cast at h8r
  rw [uro_eq] at s4
  have := (abs_le.1 s4).1
  have e1 : (1000:ℝ) / 2 ^ f.prec = 1000 * (1 / 2 ^ f.prec) := by ring
  have e2 : (1100:ℝ) / 2 ^ f.prec = 1100 * (1 / 2 ^ f.prec) := by ring
  have u0 : (0:ℝ) < 1 / 2 ^ f.prec := by positivity
  rw [e1]; rw [e2] at h8r
  generalize (1:ℝ) / 2 ^ f.prec = u at *
  linarith

example : ∃ r, erf (fin (1 / 4) false : FV binary64) = .ok (fin r false) ∧
    |(r:ℝ) - erfR ((1 / 4 : ℚ) : ℝ)| ≤ 144 * (1 / 2 ^ binary64.prec) * |erfR ((1 / 4 : ℚ) : ℝ)| := by
  obtain ⟨r, h1, h2⟩ := C71_accuracy (f := binary64) rfl (1 / 4) false (by decide +kernel) (by decide +kernel) (by norm_num [abs_of_pos])
  refine ⟨r, h1, h2.trans (le_of_eq ?_)⟩
  have : erfK |1 / 4| = 144 := by decide +kernel
  rw [this]; norm_num

example : ∃ r, erf (fin 3 false : FV binary32) = .ok (fin r false) ∧ 0 < r ∧ r ≤ 1 ∧ |(r:ℝ) - erfR ((3 : ℚ) : ℝ)| ≤ 5 / 2 * (1 / 2 ^ binary32.prec) :=
  C71_range_large rfl 3 false (by decide +kernel) (by norm_num) (by norm_num)

end Gcem.Props
