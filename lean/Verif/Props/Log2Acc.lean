import Verif.Props.LogAcc
import Verif.Props.Incomplete
import Mathlib.Analysis.SpecialFunctions.Log.Base

/-!
# C63: log2 and log10 error bounds
-/

namespace Gcem.Props
open Gcem FV
variable {f : Fmt}

/-- `log2` and `log10` share this shape: divide in `long double` by the stored logarithm of the base -/
def logDiv (c : ℚ) (x : FV f) : Res (FV f) := do
  let l ← log x
  .ok (cast f (cast f.ldbl l / L c))

theorem rnd_err_up {g : Fmt} (hg : uro g ≤ uro f) {y y0 c C : ℚ} (h : |y - y0| ≤ (c * |y0| + C * pow2 (-100)) * uro f)
    (c0 : 0 ≤ c) (c1 : c ≤ 100) (C0 : 0 ≤ C) (C1 : C ≤ 100) :
    |rnd g y - y0| ≤ ((c + 1001 / 1000) * |y0| + (C + 2) * pow2 (-100)) * uro f := by
  have e := rnd_err_all (f := g) y
  have he := half_emin_le g
  have hu := uro_pos f
  have hu1 := uro_lt_half f
  have hg0 := uro_pos g
  have hp := pow2_pos (-100)
  generalize pow2 (-100) = t at *
  have h0 := abs_nonneg y0
  have hy : |y| ≤ |y0| + (c * |y0| + C * t) * uro f := by
    calc |y| = |y0 + (y - y0)| := by ring_nf
      _ ≤ _ := (abs_add_le _ _).trans (by gcongr)
  have e1 : uro g * |y| ≤ uro f * (|y0| + (c * |y0| + C * t) * uro f) :=
    mul_le_mul hg hy (abs_nonneg _) hu.le
  have e2 : uro g * t ≤ uro f * t := mul_le_mul_of_nonneg_right hg hp.le
  have e3 : (c * |y0| + C * t) * uro f ≤ 1 / 1000 * (|y0| + t) := by
    have : (c * |y0| + C * t) ≤ 100 * (|y0| + t) := by nlinarith
    have h2 : 0 ≤ c * |y0| + C * t := by positivity
    nlinarith
  have e4 := mul_le_mul_of_nonneg_left e3 hu.le
  calc |rnd g y - y0| = |(rnd g y - y) + (y - y0)| := by ring_nf
    _ ≤ |rnd g y - y| + |y - y0| := abs_add_le _ _
    _ ≤ _ := by nlinarith

theorem uro_ldbl_ldbl (f : Fmt) : f.ldbl.ldbl = f.ldbl := by rcases f with ⟨⟨⟩, ⟨⟩⟩ <;> rfl

theorem rep_ldbl {r : ℚ} (h : Rep f r) : Rep f.ldbl r := by
  by_cases hf : f.exact = true
  · exact rep_of_exact (by rcases f with ⟨⟨⟩, ⟨⟩⟩ <;> first | rfl | simp at hf) r
  rw [Bool.not_eq_true] at hf
  by_cases h0 : r = 0
  · rw [h0]; exact Rep.zero
  obtain ⟨m, hm, hb⟩ := rep_scaled hf h0 h
  rw [hm]
  refine rep_of_scaled (hb.le.trans ?_) (le_trans ?_ (fexp_ge f r))
  · exact pow_le_pow_right₀ (by norm_num) (by rcases f with ⟨⟨⟩, ⟨⟩⟩ <;> decide)
  · rcases f with ⟨⟨⟩, ⟨⟩⟩ <;> decide

theorem logDiv_err {c r : ℚ} {w : Bool} (h1 : 1 / 2 ≤ c) (h2 : c ≤ 4) (hr : |r| ≤ 2 ^ 20) (hv : Rep f r) :
    ∃ s w', cast f (cast f.ldbl (fin r w : FV f) / L c) = (fin s w' : FV f) ∧
      |s - r / c| ≤ (42 / 10 * |r / c| + 5 * pow2 (-100)) * uro f ∧ (r = 0 → s = 0) := by
  have hu := uro_pos f
  have hu1 := uro_lt_half f
  have hl := uro_ldbl_le f
  have hl0 := uro_pos f.ldbl
  obtain ⟨v, wv, ev, hve⟩ := L_err (f := f.ldbl) (c := c) (by linarith) h2
  rw [uro_ldbl_ldbl] at hve
  have hrl := rep_ldbl hv
  have v1 := (is_fin (f := f) r w).cast (g := f.ldbl) (nov (hr.trans (by norm_num)))
  rw [show rnd f.ldbl r = r from hrl] at v1
  have hve' : |v - c| ≤ 2002 / 1000 * uro f * c := by
    refine hve.trans (mul_le_mul_of_nonneg_right ?_ (by linarith))
    nlinarith
  have hvc := abs_le.1 hve'
  have hv0 : 49 / 100 ≤ v := by nlinarith
  have hd : |r / v - r / c| ≤ (2003 / 1000 * |r / c| + 0 * pow2 (-100)) * uro f := by
    have e : r / v - r / c = r / c * ((c - v) / v) := by field_simp
    rw [e, abs_mul, zero_mul, add_zero, mul_comm (2003 / 1000) _, mul_assoc]
    refine mul_le_mul_of_nonneg_left ?_ (abs_nonneg _)
    rw [abs_div, abs_of_pos (show 0 < v by linarith), div_le_iff₀ (by linarith), abs_sub_comm]
    refine hve'.trans ?_
    have : 2002 / 1000 * c ≤ 2003 / 1000 * v := by nlinarith
    nlinarith
  have hb : |r / c| ≤ 2 ^ 21 := by
    rw [abs_div, abs_of_pos (show 0 < c by linarith), div_le_iff₀ (by linarith)]
    norm_num at hr ⊢; linarith
  have hp : pow2 (-100) ≤ 1 := by rw [← pow2_zero]; exact pow2_le (by norm_num)
  have hp0 := pow2_pos (-100)
  have small : ∀ {y a b : ℚ}, |y - r / c| ≤ (a * |r / c| + b * pow2 (-100)) * uro f → 0 ≤ a → 0 ≤ b → a ≤ 100 → b ≤ 100 →
      |y| ≤ 2 ^ 127 := by
    intro y a b h ha hb' ha' hb''
    have h0 := abs_nonneg (r / c)
    calc |y| = |r / c + (y - r / c)| := by ring_nf
      _ ≤ |r / c| + |y - r / c| := abs_add_le _ _
      _ ≤ 2 ^ 21 + (100 * 2 ^ 21 + 100 * 1) * 1 := by
        refine add_le_add hb (h.trans (mul_le_mul ?_ (by linarith) hu.le (by norm_num)))
        exact add_le_add (mul_le_mul ha' hb h0 (by norm_num)) (mul_le_mul hb'' hp hp0.le (by norm_num))
      _ ≤ _ := by norm_num
  have v2 := v1.div ⟨wv, ev⟩ (by linarith) (nov (small hd (by norm_num) le_rfl (by norm_num) (by norm_num)))
  have e2 := rnd_err_up hl hd (by norm_num) (by norm_num) le_rfl (by norm_num)
  obtain ⟨w', hw'⟩ := v2.cast (g := f) (nov (small e2 (by norm_num) (by norm_num) (by norm_num) (by norm_num)))
  have e3 := rnd_err_up (g := f) le_rfl e2 (by norm_num) (by norm_num) (by norm_num) (by norm_num)
  refine ⟨_, w', hw', e3.trans (mul_le_mul_of_nonneg_right ?_ hu.le), fun h => by rw [h, zero_div, rnd_zero, rnd_zero]⟩
  have h0 := abs_nonneg (r / c)
  nlinarith

theorem logDiv_two (x : FV f) : log2 x = logDiv LOG_2 x := rfl
theorem logDiv_ten (x : FV f) : log10 x = logDiv LOG_10 x := rfl

/-- passing from the bound on the logarithm to the bound on the quotient -/
theorem logDiv_real {c s r : ℚ} {y l E : ℝ} (c1 : 1 / 2 ≤ c) (c2 : c ≤ 4)
    (hc : |(c:ℝ) - y| ≤ ((1 / (2 * 10 ^ 40) : ℚ) : ℝ))
    (hs : |s - r / c| ≤ (42 / 10 * |r / c| + 5 * pow2 (-100)) * uro f) (hr : |(r:ℝ) - l| ≤ E) :
    |(s:ℝ) - l / y| ≤ (1001 / 1000 * E + (43 / 10 * |l| + 1 / 2 ^ 80) * (1 / 2 ^ f.prec)) / y := by
  have hug : (1 / 2 ^ 64 : ℝ) ≤ uro f := by
    have := (Rat.cast_le (K := ℝ)).2 (uro_ge f); push_cast at this; exact this
  have hur1 := uro_le f
  have hur := uro_pos_real f
  rw [← uro_eq]
  have hs' : |(s:ℝ) - r / c| ≤ (42 / 10 * |(r:ℝ) / c| + 5 * (1 / 2 ^ 100)) * uro f := by
    have e : pow2 (-100) = 1 / 2 ^ 100 := by norm_num [pow2_eq]
    rw [e] at hs
    have := (Rat.cast_le (K := ℝ)).2 hs; push_cast at this; exact this
  have c1' : (1 / 2 : ℝ) ≤ c := by have := (Rat.cast_le (K := ℝ)).2 c1; push_cast at this; exact this
  have c2' : (c:ℝ) ≤ 4 := by have := (Rat.cast_le (K := ℝ)).2 c2; push_cast at this; exact this
  generalize (c:ℝ) = C at *
  generalize (r:ℝ) = R at *
  generalize (s:ℝ) = S at *
  generalize (uro f : ℝ) = u at *
  push_cast at hc
  have hy0 : 49 / 100 ≤ y := by have := (abs_le.1 hc).2; norm_num at this ⊢; linarith
  have hy1 : y ≤ 5 := by have := (abs_le.1 hc).1; norm_num at this ⊢; linarith
  have hR : |R| ≤ |l| + E := by
    calc |R| = |l + (R - l)| := by ring_nf
      _ ≤ _ := (abs_add_le _ _).trans (by gcongr)
  have hE0 : 0 ≤ E := (abs_nonneg _).trans hr
  have hl0 := abs_nonneg l
  have hCy : |y / C - 1| ≤ 1 / 10 ^ 40 := by
    have e : y / C - 1 = (y - C) / C := by field_simp
    rw [e, abs_div, abs_of_pos (show 0 < C by linarith), div_le_iff₀ (by linarith), abs_sub_comm]
    refine hc.trans ?_
    norm_num at c1' ⊢; linarith
  rw [le_div_iff₀ (by linarith)]
  have e1 : |S - l / y| * y = |S * y - l| := by
    rw [← abs_of_pos (show 0 < y by linarith), ← abs_mul, abs_of_pos (show 0 < y by linarith), sub_mul,
      div_mul_cancel₀ _ (by linarith)]
  rw [e1]
  have e2 : S * y - l = (S - R / C) * y + (R * (y / C - 1) + (R - l)) := by field_simp; ring
  have e3 : |R / C| * y ≤ |R| * (1 + 1 / 10 ^ 40) := by
    have : |R / C| * y = |R| * (y / C) := by
      rw [abs_div, abs_of_pos (show 0 < C by linarith)]; field_simp
    rw [this]
    exact mul_le_mul_of_nonneg_left (by linarith [(abs_le.1 hCy).2]) (abs_nonneg _)
  have e4 : |S - R / C| * y ≤ (42 / 10 * (|R| * (1 + 1 / 10 ^ 40)) + 25 * (1 / 2 ^ 100)) * u := by
    calc |S - R / C| * y ≤ (42 / 10 * |R / C| + 5 * (1 / 2 ^ 100)) * u * y := mul_le_mul_of_nonneg_right hs' (by linarith)
      _ = (42 / 10 * (|R / C| * y) + 5 * (1 / 2 ^ 100) * y) * u := by ring
      _ ≤ _ := by
        refine mul_le_mul_of_nonneg_right ?_ hur.le
        have : 5 * (1 / 2 ^ 100) * y ≤ 25 * (1 / 2 ^ 100) := by
          norm_num at *; linarith
        linarith
  have e5 : |R * (y / C - 1)| ≤ |R| * (1 / 10 ^ 40) := by
    rw [abs_mul]; exact mul_le_mul_of_nonneg_left hCy (abs_nonneg _)
  have e6 : |R| * (1 / 10 ^ 40) ≤ |R| * (1 / 100 * u) := by
    refine mul_le_mul_of_nonneg_left ?_ (abs_nonneg _)
    norm_num at hug ⊢; linarith
  have e7 : |R| * u ≤ (|l| + E) * u := mul_le_mul_of_nonneg_right hR hur.le
  have e8 : E * u ≤ 1 / 10000 * E := by nlinarith
  rw [e2]
  refine (abs_add_le _ _).trans ((add_le_add_right (abs_add_le _ _) _).trans ?_)
  rw [abs_mul, abs_of_pos (show 0 < y by linarith)]
  have e9 : (42 / 10 * (|R| * (1 + 1 / 10 ^ 40)) + 25 * (1 / 2 ^ 100)) * u ≤ 421 / 100 * (|R| * u) + 1 / 2 ^ 80 * u := by
    have : 0 ≤ |R| * u := mul_nonneg (abs_nonneg _) hur.le
    norm_num
    nlinarith
  nlinarith

/-- the quotient step for a base whose stored logarithm `c` is accurate -/
theorem logDiv_step (hf : f.exact = false) {c : ℚ} {y l E : ℝ} (c1 : 1 / 2 ≤ c) (c2 : c ≤ 4)
    (hc : |(c:ℝ) - y| ≤ ((1 / (2 * 10 ^ 40) : ℚ) : ℝ)) {x : FV f} (hx : Valid x) {r : ℚ} {w : Bool}
    (h : log x = .ok (fin r w)) (hr : |(r:ℝ) - l| ≤ E) (hb : |l| + E ≤ 2 ^ 20) :
    ∃ s w', logDiv c x = .ok (fin s w') ∧
      |(s:ℝ) - l / y| ≤ (1001 / 1000 * E + (43 / 10 * |l| + 1 / 2 ^ 80) * (1 / 2 ^ f.prec)) / y ∧ (r = 0 → s = 0) := by
  have hv : Valid (fin r w : FV f) := by have := okv_log hf hx; rw [h] at this; exact this
  have hR : |r| ≤ 2 ^ 20 := by
    have : |(r:ℝ)| ≤ 2 ^ 20 := by
      calc |(r:ℝ)| = |l + (r - l)| := by ring_nf
        _ ≤ _ := (abs_add_le _ _).trans (by linarith)
    have h2 : ((|r| : ℚ) : ℝ) ≤ ((2 ^ 20 : ℚ) : ℝ) := by push_cast; exact this
    exact_mod_cast h2
  obtain ⟨s, w', e1, e2, e0⟩ := logDiv_err (f := f) (w := w) c1 c2 hR hv.rep
  refine ⟨s, w', ?_, logDiv_real c1 c2 hc e2 hr, e0⟩
  unfold logDiv
  rw [h]
  exact congrArg _ e1

theorem log_max (hf : f.exact = false) {q : ℚ} {z : Bool} (hx : Valid (fin q z : FV f)) (h1 : 1 ≤ q) :
    Real.log q ≤ 20000 := by
  have h := le_mul_pow hf (by linarith) hx.novf
  have hq : (0:ℝ) < q := by exact_mod_cast (show 0 < q by linarith)
  have h' : (q:ℝ) ≤ 10 * 2 ^ 16384 := by have := (Rat.cast_le (K := ℝ)).2 h; push_cast at this; exact this
  have h2 := Real.log_le_log hq h'
  rw [Real.log_mul (by norm_num) (by positivity), Real.log_pow] at h2
  have := log10_bounds
  have := log2_bounds
  push_cast at h2
  linarith

theorem logDiv_ge_one (hf : f.exact = false) {c : ℚ} {y : ℝ} (c1 : 1 / 2 ≤ c) (c2 : c ≤ 4)
    (hc : |(c:ℝ) - y| ≤ ((1 / (2 * 10 ^ 40) : ℚ) : ℝ)) (q : ℚ) (z : Bool) (hx : Valid (fin q z : FV f)) (h1 : 1 ≤ q) :
    ∃ s w, logDiv c (fin q z : FV f) = .ok (fin s w) ∧
      |(s:ℝ) - Real.log q / y| ≤ (16 + 10 * Real.log q) / y * (1 / 2 ^ f.prec) := by
  obtain ⟨r, w, e1, e2⟩ := C37_ge_one hf q z hx h1
  have hl0 : 0 ≤ Real.log q := Real.log_nonneg (by exact_mod_cast h1)
  have hl1 := log_max hf hx h1
  have hu1 : (1 / 2 ^ f.prec : ℝ) ≤ 1 / 16777216 := by rw [← uro_eq]; exact uro_le f
  have hu0 : (0:ℝ) < 1 / 2 ^ f.prec := by positivity
  obtain ⟨s, w', e3, e4, -⟩ := logDiv_step hf c1 c2 hc hx e1 e2 (by
    rw [abs_of_nonneg hl0]
    generalize (1 / 2 ^ f.prec : ℝ) = u at *
    nlinarith)
  refine ⟨s, w', e3, e4.trans ?_⟩
  rw [abs_of_nonneg hl0]
  have hy : 0 < y := by
    have c1' : (1 / 2 : ℝ) ≤ c := by have := (Rat.cast_le (K := ℝ)).2 c1; push_cast at this; exact this
    have := (abs_le.1 hc).2; push_cast at this; norm_num at this; linarith
  generalize (1 / 2 ^ f.prec : ℝ) = u at *
  rw [show ∀ a : ℝ, a / y * u = a * u / y from fun a => by ring]
  refine div_le_div_of_nonneg_right ?_ hy.le
  generalize Real.log q = l at *
  norm_num
  nlinarith

theorem log_abs_ge (hf : f.exact = false) {q : ℚ} (hr : Rep f q) (h1 : 1 / 2 ≤ q) (h2 : q ≤ 3 / 2) (hne : q ≠ 1) :
    1 / 2 ^ 65 ≤ |Real.log q| := by
  have h := sub_one_ge hf hr h1 (by linarith) hne
  have hug := uro_ge f
  have hq : (0:ℝ) < q := by exact_mod_cast (show 0 < q by linarith)
  have h' : (1 / 2 ^ 64 : ℝ) ≤ |(q:ℝ) - 1| := by
    have := (Rat.cast_le (K := ℝ)).2 (hug.trans h); push_cast at this; exact this
  have h2' : (q:ℝ) ≤ 3 / 2 := by have := (Rat.cast_le (K := ℝ)).2 h2; push_cast at this; exact this
  have a := Real.log_le_sub_one_of_pos hq
  have b := Real.one_sub_inv_le_log_of_pos hq
  rcases le_or_gt (q:ℝ) 1 with h3 | h3
  · rw [abs_of_nonpos (by linarith)] at h'
    rw [abs_of_nonpos (by linarith)]
    norm_num at h' ⊢; linarith
  · rw [abs_of_pos (by linarith)] at h'
    have e : 1 - (q:ℝ)⁻¹ = (q - 1) / q := by field_simp
    have e2 : (q - 1) / 2 ≤ ((q:ℝ) - 1) / q := by
      apply div_le_div_of_nonneg_left <;> linarith
    rw [abs_of_nonneg (by linarith)]
    norm_num at h' ⊢; linarith

theorem logDiv_direct (hf : f.exact = false) {c : ℚ} {y : ℝ} (c1 : 1 / 2 ≤ c) (c2 : c ≤ 4)
    (hc : |(c:ℝ) - y| ≤ ((1 / (2 * 10 ^ 40) : ℚ) : ℝ)) (q : ℚ) (z : Bool) (hx : Valid (fin q z : FV f))
    (h1 : 1 / 2 ≤ q) (h2 : q ≤ 3 / 2) :
    ∃ s w, logDiv c (fin q z : FV f) = .ok (fin s w) ∧
      |(s:ℝ) - Real.log q / y| ≤ 10 * (1 / 2 ^ f.prec) * |Real.log q / y| := by
  obtain ⟨r, w, e1, e2⟩ := C37_direct_range hf q z hx h1 h2
  have hu1 : (1 / 2 ^ f.prec : ℝ) ≤ 1 / 16777216 := by rw [← uro_eq]; exact uro_le f
  have hu0 : (0:ℝ) < 1 / 2 ^ f.prec := by positivity
  have hb : |Real.log q| ≤ 1 := by
    have hq : (0:ℝ) < q := by exact_mod_cast (show 0 < q by linarith)
    have h1' : (1 / 2 : ℝ) ≤ q := by have := (Rat.cast_le (K := ℝ)).2 h1; push_cast at this; exact this
    have h2' : (q:ℝ) ≤ 3 / 2 := by have := (Rat.cast_le (K := ℝ)).2 h2; push_cast at this; exact this
    have a := Real.log_le_sub_one_of_pos hq
    have b := Real.one_sub_inv_le_log_of_pos hq
    have : (q:ℝ)⁻¹ ≤ 2 := by rw [inv_le_comm₀ hq (by norm_num)]; linarith
    rw [abs_le]; constructor <;> linarith
  obtain ⟨s, w', e3, e4, e0⟩ := logDiv_step hf c1 c2 hc hx e1 e2 (by
    have := abs_nonneg (Real.log q)
    generalize (1 / 2 ^ f.prec : ℝ) = u at *
    nlinarith)
  refine ⟨s, w', e3, ?_⟩
  have hy : 0 < y := by
    have c1' : (1 / 2 : ℝ) ≤ c := by have := (Rat.cast_le (K := ℝ)).2 c1; push_cast at this; exact this
    have := (abs_le.1 hc).2; push_cast at this; norm_num at this; linarith
  by_cases hq1 : q = 1
  · subst hq1
    have hr0 : r = 0 := by simpa using e2
    rw [e0 hr0]; simp
  have hl := log_abs_ge hf hx.rep h1 h2 hq1
  refine e4.trans ?_
  generalize (1 / 2 ^ f.prec : ℝ) = u at *
  rw [abs_div, abs_of_pos hy, ← mul_div_assoc]
  refine div_le_div_of_nonneg_right ?_ hy.le
  generalize |Real.log q| = l at *
  have : (1 / 2 ^ 80 : ℝ) ≤ 1 / 100 * l := by norm_num at hl ⊢; linarith
  have := mul_le_mul_of_nonneg_right this hu0.le
  have := mul_pos (show 0 < l by linarith [show (0:ℝ) < 1 / 2 ^ 65 by positivity]) hu0
  nlinarith

/-- C63: `log2` next to 1 is accurate relative to the result. -/
theorem C63_log2_direct (hf : f.exact = false) (q : ℚ) (z : Bool) (hx : Valid (fin q z : FV f))
    (h1 : 1 / 2 ≤ q) (h2 : q ≤ 3 / 2) :
    ∃ s w, log2 (fin q z : FV f) = .ok (fin s w) ∧
      |(s:ℝ) - Real.logb 2 q| ≤ 10 * (1 / 2 ^ f.prec) * |Real.logb 2 q| :=
  logDiv_direct hf (by decide +kernel) (by decide +kernel) LOG_2_err q z hx h1 h2

/-- C63: `log2` for every finite `x ≥ 1`. -/
theorem C63_log2_ge_one (hf : f.exact = false) (q : ℚ) (z : Bool) (hx : Valid (fin q z : FV f)) (h1 : 1 ≤ q) :
    ∃ s w, log2 (fin q z : FV f) = .ok (fin s w) ∧
      |(s:ℝ) - Real.logb 2 q| ≤ (16 + 10 * Real.log q) / Real.log 2 * (1 / 2 ^ f.prec) :=
  logDiv_ge_one hf (by decide +kernel) (by decide +kernel) LOG_2_err q z hx h1

/-- C63: `log10` next to 1 is accurate relative to the result. -/
theorem C63_log10_direct (hf : f.exact = false) (q : ℚ) (z : Bool) (hx : Valid (fin q z : FV f))
    (h1 : 1 / 2 ≤ q) (h2 : q ≤ 3 / 2) :
    ∃ s w, log10 (fin q z : FV f) = .ok (fin s w) ∧
      |(s:ℝ) - Real.logb 10 q| ≤ 10 * (1 / 2 ^ f.prec) * |Real.logb 10 q| :=
  logDiv_direct hf (by decide +kernel) (by decide +kernel) LOG_10_err q z hx h1 h2

/-- C63: `log10` for every finite `x ≥ 1`. -/
theorem C63_log10_ge_one (hf : f.exact = false) (q : ℚ) (z : Bool) (hx : Valid (fin q z : FV f)) (h1 : 1 ≤ q) :
    ∃ s w, log10 (fin q z : FV f) = .ok (fin s w) ∧
      |(s:ℝ) - Real.logb 10 q| ≤ (16 + 10 * Real.log q) / Real.log 10 * (1 / 2 ^ f.prec) :=
  logDiv_ge_one hf (by decide +kernel) (by decide +kernel) LOG_10_err q z hx h1

/-- C63: `log2` is not exact at powers of two: `log2(8.0)` is less than 3 (so truncating it to an integer gives 2), and
`log10(1000.0)` is not 3. -/
theorem C63_not_exact : log2 (fin 8 false : FV binary64) = .ok (fin (3 - 1 / 2 ^ 51) false) ∧
    log10 (fin 1000 false : FV binary64) = .ok (fin (3 + 1 / 2 ^ 51) false) := by
  constructor <;> decide +kernel

example : ∃ s w, log2 (fin 8 false : FV binary64) = .ok (fin s w) ∧
    |(s:ℝ) - Real.logb 2 (8:ℚ)| ≤ (16 + 10 * Real.log (8:ℚ)) / Real.log 2 * (1 / 2 ^ 53) :=
  C63_log2_ge_one (f := binary64) rfl 8 false (by decide +kernel) (by norm_num)

example : ∃ s w, log10 (fin (7 / 8) false : FV binary32) = .ok (fin s w) ∧
    |(s:ℝ) - Real.logb 10 (7 / 8 : ℚ)| ≤ 10 * (1 / 2 ^ 24) * |Real.logb 10 (7 / 8 : ℚ)| :=
  C63_log10_direct (f := binary32) rfl (7 / 8) false (by decide +kernel) (by norm_num) (by norm_num)

end Gcem.Props
