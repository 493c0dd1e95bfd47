import Verif.Props.ErfInvStart
import Verif.Props.ErfInvStep
import Verif.Props.Erf

/-! # C83: accuracy of `erf_inv` -/

namespace Gcem.Props
open FV

variable {f : Fmt}

theorem exp_le_inv {s : ℝ} {t B : ℚ} (h0 : 0 ≤ s) (h : s ≤ t) (B0 : 0 < B) (hB : 1 / B ≤ expN 16 t) : Real.exp s ≤ B := by
  have t0 : (0:ℝ) ≤ t := h0.trans h
  have h1 := (exp_alt 8).1 t t0
  have h2 := (Rat.cast_le (K := ℝ)).2 hB
  rw [expN_cast] at h2
  push_cast at h2
  have Bp : (0:ℝ) < B := by exact_mod_cast B0
  have h3 : 1 / (B:ℝ) ≤ (Real.exp t)⁻¹ := by rw [← Real.exp_neg]; exact h2.trans h1
  rw [one_div, inv_le_inv₀ Bp (Real.exp_pos _)] at h3
  exact (Real.exp_le_exp.2 h).trans h3

theorem ei_begin {p : ℚ} {zp : Bool} (p0 : 0 < p) (p1 : p ≤ 94 / 100) :
    erf_inv (fin p zp : FV f) = (do
      let iv ← erf_inv_initial_val (fin p zp : FV f)
      erf_inv_recur_begin iv (fin p zp)) := by
  unfold erf_inv erf_inv_begin
  have i1 := is_i (f := f) (n := 1) (by norm_num)
  have m1 : (limMin : FV f) = fin (minNormal f) false := rfl
  have mn := minNormal_le' f
  have s1 := i1.sub (is_fin (f := f) p zp) (nov (le_trans (b := 2) (by push_cast; exact abs_le.2 ⟨by linarith, by linarith⟩) (by norm_num)))
  have s2 := i1.add (is_fin (f := f) p zp) (nov (le_trans (b := 2) (by push_cast; exact abs_le.2 ⟨by linarith, by linarith⟩) (by norm_num)))
  have half : Rep f (1 / 32 : ℚ) := by
    have := rep_pow2 (f := f) (e := -5) (by have := emin_neg f; rcases f with ⟨⟨⟩, ⟨⟩⟩ <;> decide +kernel)
    rwa [show pow2 (-5) = 1 / 32 by norm_num [pow2_eq]] at this
  have r1 : 1 / 32 ≤ rnd f (((1:ℤ):ℚ) - p) := le_rnd_of_rep half (by push_cast; linarith)
  have r2 : 1 / 32 ≤ rnd f (((1:ℤ):ℚ) + p) := le_rnd_of_rep half (by push_cast; linarith)
  rw [if_neg (by simp), if_neg (by
    intro h
    have := (i1.lt_iff (is_fin (f := f) p zp).fabs).1 h
    rw [abs_of_pos p0] at this; push_cast at this; linarith),
    if_neg (by
    intro h
    have := (s1.fabs.lt_iff (is_fin (f := f) (minNormal f) false)).1 h
    rw [abs_of_pos (lt_of_lt_of_le (by norm_num) r1)] at this
    exact absurd (lt_of_lt_of_le this mn) (not_lt.2 (le_trans (by norm_num) r1))),
    if_neg (by
    intro h
    have := (s2.fabs.lt_iff (is_fin (f := f) (minNormal f) false)).1 h
    rw [abs_of_pos (lt_of_lt_of_le (by norm_num) r2)] at this
    exact absurd (lt_of_lt_of_le this mn) (not_lt.2 (le_trans (by norm_num) r2)))]

theorem ei_begin1 {p : ℚ} {zp : Bool} (p0 : 0 < p) (p1 : p ≤ 94 / 100) {iv : FV f} (h : erf_inv_initial_val (fin p zp : FV f) = .ok iv) :
    erf_inv (fin p zp : FV f) = erf_inv_recur_begin iv (fin p zp) := by
  have key : ∀ g : FV f → FV f → Res (FV f), (do
      let iv ← erf_inv_initial_val (fin p zp : FV f)
      g iv (fin p zp)) = g iv (fin p zp) := fun g => by rw [h]; rfl
  exact (ei_begin p0 p1).trans (key _)

theorem ei_begin2 {iv p d1 r : FV f} (h1 : erf_inv_deriv_1 iv = .ok d1) (h2 : erf_inv_recur p 59 iv d1 = .ok r) :
    erf_inv_recur_begin iv p = .ok r := by
  have key : ∀ g : FV f → FV f → Res (FV f), g iv d1 = .ok r → (do
      let d1 ← erf_inv_deriv_1 iv
      g iv d1) = .ok r := fun g hg => by rw [h1]; exact hg
  exact key _ h2

/-- `erf_inv` on a range of arguments where `erf` has error constant `K` -/
theorem ei_main (hf : f.exact = false) {p : ℚ} {zp : Bool} (hp : 1 / 2 ^ 100 ≤ p) (p1 : p ≤ 94 / 100) {y : ℝ} (y0 : 0 < y) (hy : erfR y = p)
    (y133 : y ≤ 133 / 100) {Y t K Eb C : ℚ} (yY : y ≤ Y) (hK0 : 0 ≤ K) (hK1 : K ≤ 1000) (hK : ∀ v : ℚ, 0 < v → v ≤ 126 / 125 * Y → erfK v ≤ K)
    (ht : (126 / 125 * Y) ^ 2 ≤ t) (Eb0 : 0 < Eb) (hE : 1 / Eb ≤ expN 16 t)
    (hC : (14223 / 10000 * K * Eb + 102 / 100) / (5042 / 10000) + 1 / 10 ≤ C) (hC2 : C ≤ 16000) :
    ∃ (r : ℚ) (w : Bool), erf_inv (fin p zp : FV f) = .ok (fin r w) ∧ |(r:ℝ) - y| ≤ C * uro f * y := by
  have u0 := uro_pos_real f
  have u1 := uro_le f
  have ug : (1 / 2 ^ 64 : ℝ) ≤ uro f := by
    have := (Rat.cast_le (K := ℝ)).2 (uro_ge f); push_cast at this; exact this
  have p0 : 0 < p := lt_of_lt_of_le (by positivity) hp
  have pp : (0:ℝ) < p := by exact_mod_cast p0
  have hpr : (1 / 2 ^ 100 : ℝ) ≤ p := by have := (Rat.cast_le (K := ℝ)).2 hp; push_cast at this; exact this
  have ylo : 1 / 2 ^ 102 ≤ y := by
    have h5 := erfR_le_lin y0.le
    have h6 : 2 / Real.sqrt Real.pi * y ≤ 112838 / 100000 * y := by have := erfC_le; gcongr
    rw [hy] at h5
    norm_num at hpr ⊢
    linarith
  obtain ⟨v, z, ev, vv, bv⟩ := ei_start (zp := zp) hf hp p1 y0 hy
  have bv' := abs_le.1 bv
  have v0 : 0 < v := by exact_mod_cast (by linarith : (0:ℝ) < v)
  obtain ⟨D, eD, D1, D2, bD⟩ := ei_deriv hf vv v0.le (by
      exact_mod_cast (by push_cast; linarith : (v:ℝ) ≤ ((1341 / 1000 : ℚ) : ℝ)))
  have hCr := (Rat.cast_le (K := ℝ)).2 hC
  have hC2r := (Rat.cast_le (K := ℝ)).2 hC2
  push_cast at hCr hC2r
  set F : ℝ := (14223 / 10000 * K * Eb + 102 / 100) / (5042 / 10000) * uro f * y with hF
  have uy : 0 ≤ uro f * y := by positivity
  have F1 : F ≤ (C - 1 / 10) * (uro f * y) := by
    rw [hF, mul_assoc]
    exact mul_le_mul_of_nonneg_right (by linarith) uy
  have F2 : F ≤ y / 500 := by
    have : (C - 1 / 10) * (uro f * y) ≤ 16000 * (1 / 16777216 * y) := by gcongr; linarith
    linarith
  have F0 : 0 ≤ F := by
    have : (0:ℝ) ≤ K := by exact_mod_cast hK0
    have : (0:ℝ) ≤ Eb := by exact_mod_cast Eb0.le
    positivity
  obtain ⟨r, w, er, br⟩ := ei_recur (zp := zp) (K := K) (Eb := Eb) (F := F) hf ylo y133 hy (by exact_mod_cast hK0) (by exact_mod_cast hK1)
    (fun v hv h => by
      have : v ≤ 126 / 125 * Y := (Rat.cast_le (K := ℝ)).1 (by push_cast; linarith)
      exact_mod_cast hK v hv this)
    (fun w hw h => exp_le_inv (sq_nonneg w) (by
      have h7 := (Rat.cast_le (K := ℝ)).2 ht
      push_cast at h7
      have : w ≤ 126 / 125 * Y := by linarith
      have : w ^ 2 ≤ (126 / 125 * (Y:ℝ)) ^ 2 := by gcongr
      linarith) Eb0 hE) (by rw [hF]; ring) F2 59 v D z _ v vv bv le_rfl bv bD D1 D2
  refine ⟨r, w, ?_, br.trans ?_⟩
  · rw [ei_begin1 p0 p1 ev]
    exact ei_begin2 eD er
  · have k : (4958 / 10000 : ℝ) ^ (59 + 1) * (y / 125 - F) ≤ 1 / 10 * (uro f * y) := by
      have a1 : (4958 / 10000 : ℝ) ^ (59 + 1) ≤ 10 * (1 / 2 ^ 64) := by norm_num
      have a2 : y / 125 - F ≤ y / 125 := by linarith
      calc (4958 / 10000 : ℝ) ^ (59 + 1) * (y / 125 - F) ≤ (4958 / 10000 : ℝ) ^ (59 + 1) * (y / 125) := by gcongr
        _ ≤ 10 * (1 / 2 ^ 64) * (y / 125) := by gcongr
        _ ≤ 10 * uro f * (y / 125) := by gcongr
        _ ≤ _ := by nlinarith
    linarith

/-- the constants of C83 -/
def eiK (p : ℚ) : ℚ := if p ≤ 1 / 2 then 515 else if p ≤ 83 / 100 then 1371 else 15670

theorem ei_node {p ya yb wa wb : ℚ} (h : EiNode.ok ⟨p, ya, yb, wa, wb⟩ = true) {q : ℚ} {y : ℝ} (hy : erfR y = q) (hq : q ≤ p) : y ≤ yb := by
  obtain ⟨-, -, -, -, -, m6, -, -⟩ := EiNode.sound h
  refine le_of_erfR_le ?_
  rw [hy]
  exact le_trans (by exact_mod_cast hq) m6

theorem ei_pos (hf : f.exact = false) {p : ℚ} {zp : Bool} (hp : 1 / 2 ^ 100 ≤ p) (p1 : p ≤ 94 / 100) :
    ∃ (r : ℚ) (w : Bool) (y : ℝ), erf_inv (fin p zp : FV f) = .ok (fin r w) ∧ 0 < y ∧ y ≤ 133 / 100 ∧ erfR y = p ∧ |(r:ℝ) - y| ≤ eiK p * uro f * y := by
  have p0 : 0 < p := lt_of_lt_of_le (by positivity) hp
  have pp : (0:ℝ) < p := by exact_mod_cast p0
  have ok3 : EiNode.ok ⟨94/100, 132/100, 133/100, 2, 22/10⟩ = true := by decide +kernel
  have ok2 : EiNode.ok ⟨83/100, 96/100, 971/1000, 1, 12/10⟩ = true := by decide +kernel
  have ok1 : EiNode.ok ⟨1/2, 47/100, 477/1000, 28/100, 29/100⟩ = true := by decide +kernel
  obtain ⟨-, -, -, -, -, m6, -, -⟩ := EiNode.sound ok3
  obtain ⟨y, y0, yb, hy⟩ := erfR_surj (p := p) (b := 133 / 100) pp.le (by norm_num) (by
    refine le_trans (by exact_mod_cast p1) (m6.trans (le_of_eq ?_)); norm_num)
  have ypos : 0 < y := by
    rcases eq_or_lt_of_le y0 with h | h
    · rw [← h, erfR_zero] at hy; linarith
    · exact h
  have key : ∃ (r : ℚ) (w : Bool), erf_inv (fin p zp : FV f) = .ok (fin r w) ∧ |(r:ℝ) - y| ≤ eiK p * uro f * y := by
    unfold eiK
    split_ifs with h1 h2
    · have y1 := ei_node ok1 hy h1
      exact ei_main hf hp p1 ypos hy yb (Y := 477 / 1000) (t := 2312 / 10000) (K := 144) (Eb := 12602 / 10000) y1 (by norm_num) (by norm_num)
        (fun v _ hv => by unfold erfK; rw [if_pos (by norm_num at hv ⊢; linarith)]) (by norm_num) (by norm_num) (by decide +kernel) (by norm_num) (by norm_num)
    · have y1 := ei_node ok2 hy h2
      exact ei_main hf hp p1 ypos hy yb (Y := 971 / 1000) (t := 95800 / 100000) (K := 186) (Eb := 26066 / 10000) y1 (by norm_num) (by norm_num)
        (fun v _ hv => by
          unfold erfK
          split_ifs <;> first | (norm_num; done) | (exfalso; linarith)) (by norm_num) (by norm_num) (by decide +kernel) (by norm_num) (by norm_num)
    · exact ei_main hf hp p1 ypos hy yb (Y := 133 / 100) (t := 179732 / 100000) (K := 920) (Eb := 60340 / 10000) (by push_cast; linarith) (by norm_num) (by norm_num)
        (fun v _ hv => by
          unfold erfK
          split_ifs <;> first | (norm_num; done) | (exfalso; linarith)) (by norm_num) (by norm_num) (by decide +kernel) (by norm_num) (by norm_num)
  obtain ⟨r, w, e, b⟩ := key
  exact ⟨r, w, y, e, ypos, yb, hy, b⟩

theorem eiK_pos (p : ℚ) : 0 < eiK p := by unfold eiK; split_ifs <;> norm_num

/-- C83: accuracy.  For every `p` with `2^-100 ≤ |p| ≤ 0.94`, `erf_inv(p)` is a finite value and differs from the number `y`
with `erf(y) = p` by at most 515 (`|p| ≤ 1/2`), 1371 (`|p| ≤ 0.83`) or 15670 unit roundoffs of `y`. -/
theorem C83_accuracy (hf : f.exact = false) (p : ℚ) (z : Bool) (hx : Valid (fin p z : FV f)) (h1 : 1 / 2 ^ 100 ≤ |p|) (h2 : |p| ≤ 94 / 100) :
    ∃ (r : ℚ) (w : Bool) (y : ℝ), erf_inv (fin p z : FV f) = .ok (fin r w) ∧ erfR y = p ∧ |y| ≤ 133 / 100 ∧
      |(r:ℝ) - y| ≤ eiK |p| * (1 / 2 ^ f.prec) * |y| := by
  rw [← uro_eq]
  rcases lt_or_ge p 0 with h | h
  · rw [abs_of_neg h] at h1 h2 ⊢
    rw [hx.z_false h.ne]
    obtain ⟨r, w, y, e, y0, y1, hy, b⟩ := ei_pos (zp := false) hf h1 h2
    have hs := C52_odd (fin (-p) false : FV f)
    rw [e, neg_fin, if_neg (by linarith), neg_neg] at hs
    cases he : erf_inv (fin p false : FV f) with
    | error u => rw [he] at hs; simp [SameRes, Except.map] at hs
    | ok v =>
      rw [he] at hs
      simp only [SameRes, Except.map] at hs
      rw [neg_fin] at hs
      cases v with
      | nan => simp [Same] at hs
      | inf s => simp [Same] at hs
      | fin r' w' =>
        simp only [Same] at hs
        subst hs
        refine ⟨-r, w', -y, rfl, ?_, by rw [abs_neg, abs_of_pos y0]; exact y1, ?_⟩
        · rw [erfR_neg, hy]; push_cast; ring
        · rw [abs_neg, abs_of_pos y0]
          push_cast
          rw [show -(r:ℝ) - -y = -(r - y) by ring, abs_neg]
          exact b
  · rw [abs_of_nonneg h] at h1 h2 ⊢
    obtain ⟨r, w, y, e, y0, y1, hy, b⟩ := ei_pos (zp := z) hf h1 h2
    exact ⟨r, w, y, e, hy, by rw [abs_of_pos y0]; exact y1, by rw [abs_of_pos y0]; exact b⟩

/-- C83, backward: the exact error function of the returned value is within `2 eiK |p|` relative unit roundoffs of `p`. -/
theorem C83_backward (hf : f.exact = false) (p : ℚ) (z : Bool) (hx : Valid (fin p z : FV f)) (h1 : 1 / 2 ^ 100 ≤ |p|) (h2 : |p| ≤ 94 / 100) :
    ∃ (r : ℚ) (w : Bool), erf_inv (fin p z : FV f) = .ok (fin r w) ∧ |erfR r - p| ≤ 2 * eiK |p| * (1 / 2 ^ f.prec) * |(p:ℝ)| := by
  obtain ⟨r, w, y, e, hy, y1, b⟩ := C83_accuracy hf p z hx h1 h2
  refine ⟨r, w, e, ?_⟩
  have lip : ∀ a b : ℝ, |erfR a - erfR b| ≤ 112838 / 100000 * |a - b| := fun a b => by
    have := Convex.norm_image_sub_le_of_norm_hasDerivWithin_le (f := erfR) (C := 112838 / 100000) (s := Set.univ) (x := b) (y := a)
      (fun x _ => (erfR_deriv x).hasDerivWithinAt) (fun x _ => by
        rw [Real.norm_eq_abs, abs_of_pos (mul_pos erfC_pos (Real.exp_pos _))]
        have h5 : Real.exp (-x ^ 2) ≤ 1 := Real.exp_le_one_iff.2 (by linarith [sq_nonneg x])
        calc 2 / Real.sqrt Real.pi * Real.exp (-x ^ 2) ≤ 112838 / 100000 * 1 := mul_le_mul erfC_le h5 (Real.exp_pos _).le (by norm_num)
          _ = _ := by ring) convex_univ (Set.mem_univ _) (Set.mem_univ _)
    simpa [Real.norm_eq_abs] using this
  have ok3 : EiNode.ok ⟨94/100, 132/100, 133/100, 2, 22/10⟩ = true := by decide +kernel
  obtain ⟨-, -, -, -, -, m6, -, -⟩ := EiNode.sound ok3
  have m6' : (94 / 100 : ℝ) ≤ erfR (133 / 100) := by push_cast at m6; exact m6
  have ya : |y| ≤ 142 / 100 * |(p:ℝ)| := by
    have r := erfR_ratio (abs_nonneg y) y1
    have ey : erfR |y| = |(p:ℝ)| := by
      rw [← hy]
      rcases abs_cases y with ⟨h, h0⟩ | ⟨h, h0⟩ <;> rw [h]
      · have := erfR_mono h0
        rw [erfR_zero] at this
        rw [abs_of_nonneg this]
      · have := erfR_mono h0.le
        rw [erfR_zero] at this
        rw [erfR_neg, abs_of_nonpos this]
    rw [ey] at r
    have : 94 / 100 * |y| ≤ erfR (133 / 100) * |y| := by gcongr
    have := abs_nonneg (p:ℝ)
    linarith
  have l := lip r y
  rw [hy] at l
  refine l.trans ?_
  have k0 : (0:ℝ) < eiK |p| := by exact_mod_cast eiK_pos |p|
  calc 112838 / 100000 * |(r:ℝ) - y| ≤ 112838 / 100000 * (eiK |p| * (1 / 2 ^ f.prec) * (142 / 100 * |(p:ℝ)|)) := by
        gcongr
        refine b.trans ?_
        gcongr
    _ = 112838 / 100000 * (142 / 100) * (eiK |p| * (1 / 2 ^ f.prec) * |(p:ℝ)|) := by ring
    _ ≤ 2 * (eiK |p| * (1 / 2 ^ f.prec) * |(p:ℝ)|) := by gcongr; norm_num
    _ = _ := by ring

/-- C83 for a concrete argument: `erf_inv(0.75)` in `double`. -/
example : ∃ (r : ℚ) (w : Bool) (y : ℝ), erf_inv (fin (3 / 4) false : FV binary64) = .ok (fin r w) ∧ erfR y = 3 / 4 ∧
    |(r:ℝ) - y| ≤ 1371 / 2 ^ 53 * |y| := by
  have := C83_accuracy (f := binary64) rfl (3 / 4) false (by decide +kernel) (by norm_num [abs_of_pos]) (by norm_num [abs_of_pos])
  obtain ⟨r, w, y, e, hy, -, b⟩ := this
  refine ⟨r, w, y, e, by rw [hy]; norm_num, b.trans (le_of_eq ?_)⟩
  rw [show eiK |3 / 4| = 1371 by rw [abs_of_pos (by norm_num)]; norm_num [eiK]]
  norm_num [Fmt.prec, FTy.prec]

/-- C83_backward for a concrete argument: `erf_inv(-0.5)` in `float`. -/
example : ∃ (r : ℚ) (w : Bool), erf_inv (fin (-1 / 2) false : FV binary32) = .ok (fin r w) ∧ |erfR r - (-1 / 2)| ≤ 515 / 2 ^ 24 := by
  obtain ⟨r, w, e, b⟩ := C83_backward (f := binary32) rfl (-1 / 2) false (by decide +kernel) (by norm_num [abs_of_pos]) (by norm_num [abs_of_pos])
  refine ⟨r, w, e, ?_⟩
  rw [show eiK |-1 / 2| = 515 by rw [abs_of_neg (by norm_num)]; norm_num [eiK]] at b
  push_cast at b
  refine b.trans (le_of_eq ?_)
  rw [abs_of_neg (by norm_num)]
  norm_num [Fmt.prec, FTy.prec]

end Gcem.Props
