import Verif.Analysis.TanRed

/-!
# Accuracy of tan, sin and cos
-/

namespace Gcem
open FV
variable {f : Fmt}

theorem rep_minNormal (f : Fmt) : Rep f (minNormal f) :=
  rep_pow2 (by rcases f with ⟨⟨⟩, ⟨⟩⟩ <;> decide +kernel)

theorem minNormal_lt_uro (f : Fmt) : minNormal f < uro f := by
  rcases f with ⟨⟨⟩, ⟨⟩⟩ <;> decide +kernel

theorem half_emin_uro (f : Fmt) : pow2 f.emin / 2 ≤ uro f / 1000 := by
  rcases f with ⟨⟨⟩, ⟨⟩⟩ <;> decide +kernel

/-- the square of the half-angle tangent -/
theorem half_sq {v : FV f} {r : ℚ} (hv : Is v r) (h : |r| ≤ 101 / 100 * 2 ^ 63) :
    ∃ τ, Is (v * v) τ ∧ Rep f τ ∧ 0 ≤ τ ∧ τ ≤ 3 * 2 ^ 125 ∧ (r * r ≤ 1 / 4 → τ ≤ 1 / 4) ∧
      |τ - r * r| ≤ uro f * (r * r) + uro f / 1000 := by
  have hr2 : r * r ≤ 3 * 2 ^ 125 := by
    rw [← abs_mul_abs_self]
    refine (mul_le_mul h h (abs_nonneg _) (by norm_num)).trans (by norm_num)
  have hr0 : 0 ≤ r * r := mul_self_nonneg r
  have e := rnd_err_all (f := f) (r * r)
  rw [abs_of_nonneg hr0] at e
  refine ⟨rnd f (r * r), hv.mul hv (nov ?_), rep_rnd f _, rnd_nonneg hr0, rnd_le_of_rep ?_ hr2,
    fun h => rnd_le_of_rep ?_ h, e.trans (by linarith [half_emin_uro f])⟩
  · rw [abs_of_nonneg hr0]; exact hr2.trans (by norm_num)
  · exact (rep_mono_prec (f := f) (g := f) (m := 3) (e := 125) (by norm_num [pow2_eq]) (by norm_num) (by norm_num)).1
  · exact (rep_mono_prec (f := f) (g := f) (m := 1) (e := -2) (by norm_num [pow2_eq]) (by norm_num) (by norm_num)).1

/-- one plus the square -/
theorem half_den {v : FV f} {τ : ℚ} (hv : Is v τ) (ht : Rep f τ) (h0 : 0 ≤ τ) (h1 : τ ≤ 3 * 2 ^ 125) :
    ∃ D, Is (i 1 + v) D ∧ 1 ≤ D ∧ |D - (1 + τ)| ≤ uro f * (1 + τ) ∧ (τ ≤ 1 / 4 → D ≤ 3 / 2) := by
  have i1 : Is (i 1 : FV f) 1 := by simpa using is_i (f := f) (n := 1) (by norm_num)
  have e := rnd_add_rel (f := f) rep_one ht
  rw [abs_of_nonneg (show 0 ≤ 1 + τ by linarith)] at e
  have hno : overflows f (rnd f (1 + τ)) = false :=
    nov (by rw [abs_of_nonneg (by linarith)]; norm_num at h1 ⊢; linarith)
  refine ⟨_, i1.add hv hno, le_rnd_of_rep rep_one (by linarith), e, fun h => rnd_le_of_rep ?_ (by linarith)⟩
  exact (rep_mono_prec (f := f) (g := f) (m := 3) (e := -1) (by norm_num [pow2_eq]) (by norm_num) (by norm_num)).1

/-- rounding errors of `2t/(1+t²)` -/
theorem sin_compute_err {v : FV f} {r : ℚ} (hv : Is v r) (h : |r| ≤ 101 / 100 * 2 ^ 63) (hn : r = 0 ∨ minNormal f ≤ |r|) :
    ∃ s, Is (sin_compute v) s ∧ |s - 2 * r / (1 + r * r)| ≤ 41 / 10 * uro f * |2 * r / (1 + r * r)| := by
  obtain ⟨τ, iτ, rτ, t0, t1, t3, t2⟩ := half_sq hv h
  obtain ⟨D, iD, d1, d2, d3⟩ := half_den iτ rτ t0 t1
  have hu := uro_pos f
  have hu7 := uro_le7 f
  have i2 : Is (i 2 : FV f) 2 := by simpa using is_i (f := f) (n := 2) (by norm_num)
  have hD0 : 0 < D := by linarith
  have hr0 : 0 ≤ r * r := mul_self_nonneg r
  have hq0 : 0 < 1 + r * r := by linarith
  have h2r : |2 * r| ≤ 2 ^ 66 := by
    rw [abs_mul, abs_of_pos (show (0:ℚ) < 2 by norm_num)]; norm_num at h ⊢; linarith
  have iN := i2.mul hv (nov (h2r.trans (by norm_num)))
  rcases hn with rfl | hn
  · refine ⟨0, ?_, by simp⟩
    have := iN.div iD hD0.ne' (nov (by simp [rnd_zero]))
    simpa [sin_compute, rnd_zero] using this
  have hmp := FV.minNormal_pos f
  have hrabs : 0 < |r| := by linarith
  have e2r : |2 * r| = 2 * |r| := by rw [abs_mul, abs_of_pos (show (0:ℚ) < 2 by norm_num)]
  have eN := rnd_err_rel (f := f) (q := 2 * r) (by rw [e2r]; linarith)
  set N := rnd f (2 * r) with hN
  have hNlo : 2 * |r| * (1 - uro f) ≤ |N| := by
    have := abs_sub_abs_le_abs_sub (2 * r) N
    rw [abs_sub_comm] at this
    rw [e2r] at this eN
    linarith
  have hNhi : |N| ≤ 2 ^ 67 := by
    have := abs_sub_abs_le_abs_sub N (2 * r)
    have k : uro f * |2 * r| ≤ 1 / 10 ^ 7 * 2 ^ 66 := mul_le_mul hu7 h2r (abs_nonneg _) (by norm_num)
    rw [e2r] at this k h2r
    have eN' := eN
    rw [e2r] at eN'
    norm_num at h2r k ⊢; linarith
  -- the denominator
  have hτ : τ ≤ r * r + uro f * (1 + r * r) := by have := (abs_le.1 t2).2; nlinarith
  have hDe : |D - (1 + r * r)| ≤ 20001 / 10000 * uro f * (1 + r * r) := by
    have k1 : D - (1 + r * r) = (D - (1 + τ)) + (τ - r * r) := by ring
    rw [k1]
    refine (abs_add_le _ _).trans ?_
    have k2 : uro f * (1 + τ) ≤ uro f * ((1 + r * r) * (1 + uro f)) := mul_le_mul_of_nonneg_left (by nlinarith) hu.le
    have k3 : uro f * (uro f * (1 + r * r)) ≤ uro f * (1 / 10 ^ 7 * (1 + r * r)) :=
      mul_le_mul_of_nonneg_left (mul_le_mul_of_nonneg_right hu7 hq0.le) hu.le
    nlinarith
  have hDlo : (1 + r * r) * (1 - 20001 / 10000 * uro f) ≤ D := by have := (abs_le.1 hDe).1; linarith
  -- the quotient
  have hq : minNormal f ≤ |N / D| := by
    rw [abs_div, abs_of_pos hD0, le_div_iff₀ hD0]
    rcases le_or_gt (r * r) (1 / 4) with hs | hs
    · have := d3 (t3 hs)
      have k1 : minNormal f * D ≤ |r| * (3 / 2) := mul_le_mul hn this hD0.le hrabs.le
      have k2 : |r| * uro f ≤ |r| * (1 / 10 ^ 7) := mul_le_mul_of_nonneg_left hu7 hrabs.le
      linarith
    · have hr1 : 1 / 2 ≤ |r| := by
        by_contra hc
        push Not at hc
        have : |r| * |r| < 1 / 2 * (1 / 2) := mul_lt_mul'' hc hc hrabs.le hrabs.le
        rw [abs_mul_abs_self] at this; linarith
      have k1 : D ≤ 6 * (r * r) := by
        have := (abs_le.1 hDe).2
        nlinarith
      have k2 : minNormal f * D ≤ 1 / 2 ^ 125 * (6 * (r * r)) := mul_le_mul (minNormal_le' f) k1 hD0.le (by norm_num)
      have k3 : r * r ≤ |r| * (101 / 100 * 2 ^ 63) := by
        rw [← abs_mul_abs_self]; exact mul_le_mul_of_nonneg_left h hrabs.le
      have k4 : |r| * uro f ≤ |r| * (1 / 10 ^ 7) := mul_le_mul_of_nonneg_left hu7 hrabs.le
      norm_num at k2 k3 k4
      linarith
  have hqhi : |N / D| ≤ 2 ^ 67 := by
    rw [abs_div, abs_of_pos hD0, div_le_iff₀ hD0]; nlinarith
  refine ⟨rnd f (N / D), iN.div iD hD0.ne' (nov (hqhi.trans (by norm_num))), ?_⟩
  have eQ := rnd_err_rel hq
  set s := 2 * r / (1 + r * r) with hs
  have es : 2 * r = s * (1 + r * r) := by rw [hs]; field_simp
  have hND : |N / D - s| ≤ 301 / 100 * uro f * |s| := by
    have k1 : N / D - s = ((N - 2 * r) - s * (D - (1 + r * r))) / D := by
      rw [es]; field_simp; ring
    rw [k1, abs_div, abs_of_pos hD0, div_le_iff₀ hD0]
    refine (abs_sub _ _).trans ?_
    rw [abs_mul]
    have k2 : |2 * r| = |s| * (1 + r * r) := by rw [es, abs_mul, abs_of_pos hq0]
    rw [k2] at eN
    have k3 : |s| * |D - (1 + r * r)| ≤ |s| * (20001 / 10000 * uro f * (1 + r * r)) := mul_le_mul_of_nonneg_left hDe (abs_nonneg _)
    have k4 : uro f * |s| * ((1 + r * r) * (1 - 20001 / 10000 * uro f)) ≤ uro f * |s| * D :=
      mul_le_mul_of_nonneg_left hDlo (by positivity)
    have k5 : 0 ≤ uro f * |s| * (1 + r * r) := by positivity
    have k6 : (uro f * |s| * (1 + r * r)) * uro f ≤ (uro f * |s| * (1 + r * r)) * (1 / 10 ^ 7) := mul_le_mul_of_nonneg_left hu7 k5
    linarith
  have hQ : |N / D| ≤ 11 / 10 * |s| := by
    have := abs_sub_abs_le_abs_sub (N / D) s
    have k : uro f * |s| ≤ 1 / 10 ^ 7 * |s| := mul_le_mul_of_nonneg_right hu7 (abs_nonneg _)
    linarith [abs_nonneg s]
  have hQ' : |N / D| ≤ (1 + 301 / 100 * uro f) * |s| := by
    have := abs_sub_abs_le_abs_sub (N / D) s
    linarith
  have k7 : uro f * |N / D| ≤ uro f * ((1 + 301 / 100 * uro f) * |s|) := mul_le_mul_of_nonneg_left hQ' hu.le
  have k8 : (uro f * |s|) * uro f ≤ (uro f * |s|) * (1 / 10 ^ 7) := mul_le_mul_of_nonneg_left hu7 (by positivity)
  have k9 : 0 ≤ uro f * |s| := by positivity
  calc |rnd f (N / D) - s| = |(rnd f (N / D) - N / D) + (N / D - s)| := by ring_nf
    _ ≤ _ := (abs_add_le _ _).trans (by linarith)

/-- rounding errors of `(1-t²)/(1+t²)` -/
theorem cos_compute_err {v : FV f} {r : ℚ} (hv : Is v r) (h : |r| ≤ 101 / 100 * 2 ^ 63) :
    ∃ c, Is (cos_compute v) c ∧ |c - (1 - r * r) / (1 + r * r)| ≤ 37 / 10 * uro f := by
  obtain ⟨τ, iτ, rτ, t0, t1, t3, t2⟩ := half_sq hv h
  obtain ⟨D, iD, d1, d2, d3⟩ := half_den iτ rτ t0 t1
  have hu := uro_pos f
  have hu7 := uro_le7 f
  have i1 : Is (i 1 : FV f) 1 := by simpa using is_i (f := f) (n := 1) (by norm_num)
  have hD0 : 0 < D := by linarith
  have hr0 : 0 ≤ r * r := mul_self_nonneg r
  have hq0 : 0 < 1 + r * r := by linarith
  have ht0 : 0 < 1 + τ := by linarith
  have h1t : |1 - τ| ≤ 1 + τ := abs_le.2 ⟨by linarith, by linarith⟩
  have eN := rnd_add_rel (f := f) rep_one rτ.neg
  rw [← sub_eq_add_neg] at eN
  have iN := i1.sub iτ (nov (h1t.trans (by norm_num at t1 ⊢; linarith)))
  set N := rnd f (1 - τ) with hN
  have hDlo : (1 + τ) * (1 - uro f) ≤ D := by have := (abs_le.1 d2).1; linarith
  set C := (1 - τ) / (1 + τ) with hC
  have hC1 : |C| ≤ 1 := by rw [hC, abs_div, abs_of_pos ht0, div_le_one ht0]; exact h1t
  have eC : 1 - τ = C * (1 + τ) := by rw [hC]; field_simp
  have hND : |N / D - C| ≤ 201 / 100 * uro f := by
    have k1 : N / D - C = ((N - (1 - τ)) - C * (D - (1 + τ))) / D := by
      rw [eC]; field_simp; ring
    rw [k1, abs_div, abs_of_pos hD0, div_le_iff₀ hD0]
    refine (abs_sub _ _).trans ?_
    rw [abs_mul]
    have k3 : |C| * |D - (1 + τ)| ≤ 1 * (uro f * (1 + τ)) := mul_le_mul hC1 d2 (abs_nonneg _) (by norm_num)
    have k2 : uro f * |1 - τ| ≤ uro f * (1 + τ) := mul_le_mul_of_nonneg_left h1t hu.le
    have k4 : uro f * ((1 + τ) * (1 - uro f)) ≤ uro f * D := mul_le_mul_of_nonneg_left hDlo hu.le
    have k5 : 0 ≤ uro f * (1 + τ) := by positivity
    have k6 : (uro f * (1 + τ)) * uro f ≤ (uro f * (1 + τ)) * (1 / 10 ^ 7) := mul_le_mul_of_nonneg_left hu7 k5
    linarith
  have hQ : |N / D| ≤ 11 / 10 := by
    have := abs_sub_abs_le_abs_sub (N / D) C
    linarith
  have hQ' : |N / D| ≤ 1 + 201 / 100 * uro f := by
    have := abs_sub_abs_le_abs_sub (N / D) C
    linarith
  refine ⟨rnd f (N / D), iN.div iD hD0.ne' (nov (hQ.trans (by norm_num))), ?_⟩
  have eQ := rnd_err_all (f := f) (N / D)
  have hem := half_emin_uro f
  have k7 : uro f * |N / D| ≤ uro f * (1 + 201 / 100 * uro f) := mul_le_mul_of_nonneg_left hQ' hu.le
  have k8 : uro f * uro f ≤ uro f * (1 / 10 ^ 7) := mul_le_mul_of_nonneg_left hu7 hu.le
  have hCC : |C - (1 - r * r) / (1 + r * r)| ≤ 6 / 10 * uro f := by
    have k1 : C - (1 - r * r) / (1 + r * r) = -(2 * (τ - r * r)) / ((1 + τ) * (1 + r * r)) := by
      rw [hC]; field_simp; ring
    have hp : 0 < (1 + τ) * (1 + r * r) := by positivity
    rw [k1, abs_div, abs_neg, abs_mul, abs_of_pos (show (0:ℚ) < 2 by norm_num), abs_of_pos hp, div_le_iff₀ hp]
    have ht : (1 + r * r) * (1 - uro f) ≤ 1 + τ := by have := (abs_le.1 t2).1; nlinarith
    have k2 : uro f * ((1 + r * r) * (1 - uro f) * (1 + r * r)) ≤ uro f * ((1 + τ) * (1 + r * r)) :=
      mul_le_mul_of_nonneg_left (mul_le_mul_of_nonneg_right ht hq0.le) hu.le
    generalize r * r = a at *
    have k3 : 0 ≤ uro f * (1 - a) ^ 2 := by positivity
    have k4 : 0 ≤ uro f * (1 + a) ^ 2 := by positivity
    have k5 : (uro f * (1 + a) ^ 2) * uro f ≤ (uro f * (1 + a) ^ 2) * (1 / 10 ^ 7) := mul_le_mul_of_nonneg_left hu7 k4
    have k6 : 0 ≤ uro f * a := by positivity
    have k9 : 0 ≤ uro f * a ^ 2 := by positivity
    nlinarith
  calc |rnd f (N / D) - (1 - r * r) / (1 + r * r)|
      = |(rnd f (N / D) - N / D) + (N / D - C) + (C - (1 - r * r) / (1 + r * r))| := by ring_nf
    _ ≤ _ := (abs_add_three _ _ _).trans (by linarith)

/-! ## The public functions -/

theorem tan_out {v : FV f} {x : ℚ} (hf : f.exact = false) (hv : Is v x) (hr : Rep f x) (hn : minNormal f ≤ |x|) (hx : |x| ≤ 2 ^ 20) :
    ∃ w, tan v = .ok w ∧ TanOut x w 20 := by
  have i0 : Is (i 0 : FV f) 0 := by simpa using is_i (f := f) (n := 0) (by norm_num)
  have hg : ¬ ((limMin : FV f) > fabs v) := by
    obtain ⟨z, rfl⟩ := hv; rw [limMin_gt_fabs]; exact not_lt.2 hn
  unfold tan tan_check
  rw [if_neg (by simp [hv.not_nan]), if_neg hg]
  by_cases h0 : x < 0
  · rw [if_pos ((hv.lt_iff i0).2 h0)]
    obtain ⟨w, e, o⟩ := tan_begin_out hf hv.neg hr.neg (by linarith) (by rw [abs_of_neg h0] at hx; exact hx)
    rw [e]
    refine ⟨-w, rfl, ?_⟩
    have := o.neg
    rwa [neg_neg] at this
  · rw [if_neg (by rw [hv.lt_iff i0]; exact h0)]
    push Not at h0
    exact tan_begin_out hf hv hr h0 (by rw [abs_of_nonneg h0] at hx; exact hx)

theorem near_iff {x c : ℚ} (hf : f.exact = false) (hr : Rep f x) (rc : Rep f c) (c0 : 15 / 10 ≤ c) :
    |rnd f (x - c)| < minNormal f ↔ x = c := by
  have hmn := minNormal_le' f
  have hmp := FV.minNormal_pos f
  constructor
  · intro h
    by_contra hne
    have k : |x - c| < minNormal f := by
      by_contra hc
      push Not at hc
      have := le_rnd_of_rep (f := f) (rep_minNormal f) hc
      rw [← abs_rnd] at this
      linarith
    have k1 := (abs_lt.1 k).1
    have := rep_dist hf hr rc (by norm_num at hmn; linarith) (by linarith) hne
    have := minNormal_lt_uro f
    linarith
  · rintro rfl
    rw [sub_self, rnd_zero, abs_zero]; exact hmp

/-- the special-case guards of sin and cos fire at one representable number only -/
theorem pole_guard {v w : FV f} {x c : ℚ} (hf : f.exact = false) (hv : Is v x) (hr : Rep f x) (hw : Is w c) (rc : Rep f c)
    (hx : |x| ≤ 2 ^ 20) (c0 : 15 / 10 ≤ c) (c1 : c ≤ 4) :
    (((limMin : FV f) > fabs (v - w)) ↔ x = c) ∧ (((limMin : FV f) > fabs (v + w)) ↔ x = -c) := by
  have hc : |c| ≤ 4 := by rw [abs_of_pos (by linarith)]; exact c1
  have hno : overflows f (rnd f (x - c)) = false :=
    nov ((abs_sub _ _).trans (by norm_num at hx ⊢; linarith))
  have hno' : overflows f (rnd f (x + c)) = false :=
    nov ((abs_add_le _ _).trans (by norm_num at hx ⊢; linarith))
  obtain ⟨z, e⟩ := hv.sub hw hno
  obtain ⟨z', e'⟩ := hv.add hw hno'
  rw [e, e', limMin_gt_fabs, limMin_gt_fabs]
  refine ⟨near_iff hf hr rc c0, ?_⟩
  have : |rnd f (x + c)| = |rnd f (-x - c)| := by
    rw [abs_rnd, abs_rnd, ← abs_neg (x + c), neg_add']
  rw [this, near_iff hf hr.neg rc c0, neg_eq_iff_eq_neg]

/-- What the two functions compute once the guards are passed. -/
theorem half_angle {v : FV f} {x : ℚ} (hf : f.exact = false) (hv : Is v x) (hr : Rep f x) (hn : 2 * minNormal f ≤ |x|)
    (hx : |x| ≤ 2 ^ 20) : ∃ t, tan (v / i 2) = .ok t ∧ TanOut (x / 2) t 20 := by
  have i2 : Is (i 2 : FV f) 2 := by simpa using is_i (f := f) (n := 2) (by norm_num)
  have hrep : Rep f (x / 2) := by have := rep_half hf hr hn; rwa [one_div_mul_eq_div] at this
  have e2 : |x / 2| = |x| / 2 := by rw [abs_div, abs_of_pos (show (0:ℚ) < 2 by norm_num)]
  have hd := hv.div i2 (by norm_num) (nov (by rw [e2]; norm_num at hx ⊢; linarith))
  rw [hrep] at hd
  exact tan_out hf hd hrep (by rw [e2]; linarith) (by rw [e2]; linarith [abs_nonneg x])

theorem sin_two_mul_of_tan {θ t : ℝ} (h : Real.tan θ = t) (hc : Real.cos θ ≠ 0) : Real.sin (2 * θ) = 2 * t / (1 + t * t) := by
  have hs := Real.sin_sq_add_cos_sq θ
  rw [← h, Real.tan_eq_sin_div_cos, Real.sin_two_mul]
  have : 1 + Real.sin θ / Real.cos θ * (Real.sin θ / Real.cos θ) = 1 / Real.cos θ ^ 2 := by
    field_simp; linarith
  rw [this]; field_simp

theorem cos_two_mul_of_tan {θ t : ℝ} (h : Real.tan θ = t) (hc : Real.cos θ ≠ 0) : Real.cos (2 * θ) = (1 - t * t) / (1 + t * t) := by
  have hs := Real.sin_sq_add_cos_sq θ
  rw [← h, Real.tan_eq_sin_div_cos, Real.cos_two_mul]
  have : 1 + Real.sin θ / Real.cos θ * (Real.sin θ / Real.cos θ) = 1 / Real.cos θ ^ 2 := by
    field_simp; linarith
  rw [this]; field_simp; linarith

theorem abs_sin_sub_le (a b : ℝ) : |Real.sin a - Real.sin b| ≤ |a - b| := by
  have := Real.lipschitzWith_sin.dist_le_mul a b
  simpa [Real.dist_eq] using this

theorem abs_cos_sub_le (a b : ℝ) : |Real.cos a - Real.cos b| ≤ |a - b| := by
  have := Real.lipschitzWith_cos.dist_le_mul a b
  simpa [Real.dist_eq] using this

theorem wro_real (f : Fmt) : (wro f : ℝ) = 1001 / 1000 * (1 / 2 ^ f.prec) := by
  rw [← uro_eq]; unfold wro; push_cast; ring

end Gcem

namespace Gcem.Props
open Gcem FV
variable {f : Fmt}

/-- C43: the computed tangent is the exact tangent of an angle within `20.1·2^-p·|x|` of the argument.  The alternative
is `long double` only and only where the result is the constant `1.633124e16` returned at the stored `π/2`. -/
theorem C43_tan (hf : f.exact = false) (x : ℚ) (z : Bool) (hx : Valid (fin x z : FV f)) (hn : minNormal f ≤ |x|)
    (hm : |x| ≤ 2 ^ 20) :
    ∃ r w θ, tan (fin x z : FV f) = .ok (fin r w) ∧ Real.tan θ = r ∧ Real.cos θ ≠ 0 ∧
      (|θ - x| ≤ 201 / 10 * (1 / 2 ^ f.prec) * |(x:ℝ)| ∨
        (f.ty = .ldouble ∧ |r| = 16331240000000000 ∧ |θ - x| ≤ 201 / 10 * (1 / 2 ^ f.prec) * |(x:ℝ)| + 1 / 2 ^ 53)) := by
  obtain ⟨w, e, r, θ, ⟨z', rfl⟩, ht, hc, hb, -, -⟩ := tan_out hf (is_fin x z) hx.rep hn hm
  refine ⟨r, z', θ, e, ht, hc, ?_⟩
  have k : 20 * (wro f : ℝ) * |(x:ℝ)| ≤ 201 / 10 * (1 / 2 ^ f.prec) * |(x:ℝ)| := by
    rw [wro_real, ← uro_eq]
    have : (0:ℝ) < uro f := by exact_mod_cast uro_pos f
    exact mul_le_mul_of_nonneg_right (by linarith) (abs_nonneg _)
  unfold poleErr at hb
  split_ifs at hb with h
  · exact .inr ⟨h.1, h.2, by linarith⟩
  · exact .inl (by linarith)

/-- what sin and cos return, by cases on the guards -/
theorem sin_cos_cases {v : FV f} {x : ℚ} (hf : f.exact = false) (hv : Is v x) (hr : Rep f x) (hn : 2 * minNormal f ≤ |x|)
    (hm : |x| ≤ 2 ^ 20) : ∃ h P : ℚ, |(h:ℝ) - Real.pi / 2| ≤ 32 / 10 * uro f ∧ 15 / 10 ≤ h ∧ |(P:ℝ) - Real.pi| ≤ 64 / 10 * uro f ∧ 3 ≤ P ∧
      ((x = h ∧ sin v = .ok (i 1) ∧ cos v = .ok (i 0)) ∨ (x = -h ∧ sin v = .ok (-i 1) ∧ cos v = .ok (i 0)) ∨
       (x = P ∧ sin v = .ok (i 0) ∧ cos v = .ok (-i 1)) ∨ (x = -P ∧ sin v = .ok (-i 0) ∧ cos v = .ok (-i 1)) ∨
       ∃ t, tan (v / i 2) = .ok t ∧ TanOut (x / 2) t 20 ∧ sin v = .ok (sin_compute t) ∧ cos v = .ok (cos_compute t)) := by
  obtain ⟨h, ih, rh, h0, h1, eh⟩ := half_pi_val (f := f)
  obtain ⟨P, iP, rP, P0, P1, eP⟩ := pi_val (f := f)
  have hmp := FV.minNormal_pos f
  have hg : ¬ ((limMin : FV f) > fabs v) := by
    obtain ⟨z, rfl⟩ := hv; rw [limMin_gt_fabs]; exact not_lt.2 (by linarith)
  obtain ⟨g1, g2⟩ := pole_guard hf hv hr ih rh hm (by linarith) (by linarith)
  obtain ⟨g3, g4⟩ := pole_guard hf hv hr iP rP hm (by linarith) (by linarith)
  have hnan : ¬ (is_nan v = true) := by simp [hv.not_nan]
  refine ⟨h, P, eh, by linarith, eP, by linarith, ?_⟩
  unfold sin cos sin_check cos_check
  simp only [if_neg hnan, if_neg hg]
  by_cases c1 : x = h
  · refine .inl ⟨c1, ?_⟩
    simp only [if_pos (g1.2 c1), and_self]
  simp only [if_neg (mt g1.1 c1)]
  by_cases c2 : x = -h
  · refine .inr (.inl ⟨c2, ?_⟩)
    simp only [if_pos (g2.2 c2), and_self]
  simp only [if_neg (mt g2.1 c2)]
  by_cases c3 : x = P
  · refine .inr (.inr (.inl ⟨c3, ?_⟩))
    simp only [if_pos (g3.2 c3), and_self]
  simp only [if_neg (mt g3.1 c3)]
  by_cases c4 : x = -P
  · refine .inr (.inr (.inr (.inl ⟨c4, ?_⟩)))
    simp only [if_pos (g4.2 c4), and_self]
  simp only [if_neg (mt g4.1 c4)]
  obtain ⟨t, et, ot⟩ := half_angle hf hv hr hn hm
  refine .inr (.inr (.inr (.inr ⟨t, et, ot, ?_⟩)))
  rw [et]
  exact ⟨rfl, rfl⟩

theorem pole_split {x t : FV f} {r : ℚ} (T B : ℝ) (et : tan (x / i 2) = .ok t) (it : Is t r) (h : T ≤ B + 3 * poleErr f r) :
    T ≤ B ∨ (f.ty = .ldouble ∧ (∃ t w, tan (x / i 2) = .ok (fin t w) ∧ |t| = 16331240000000000) ∧ T ≤ B + 1 / 2 ^ 51) := by
  obtain ⟨w, rfl⟩ := it
  unfold poleErr at h
  split_ifs at h with c
  · exact .inr ⟨c.1, ⟨r, w, et, c.2⟩, h.trans (by norm_num)⟩
  · exact .inl (by linarith)

/-- C43: error of the sine.  The alternative is `long double` only, where the tangent of the half angle may be the
constant `1.633124e16`. -/
theorem C43_sin (hf : f.exact = false) (x : ℚ) (z : Bool) (hx : Valid (fin x z : FV f)) (hn : 2 * minNormal f ≤ |x|)
    (hm : |x| ≤ 2 ^ 20) :
    ∃ r w, sin (fin x z : FV f) = .ok (fin r w) ∧
      (|(r:ℝ) - Real.sin x| ≤ 25 * (1 / 2 ^ f.prec) * |(x:ℝ)| ∨
        (f.ty = .ldouble ∧ (∃ t w, tan (fin x z / i 2 : FV f) = .ok (fin t w) ∧ |t| = 16331240000000000) ∧
          |(r:ℝ) - Real.sin x| ≤ 25 * (1 / 2 ^ f.prec) * |(x:ℝ)| + 1 / 2 ^ 51)) := by
  obtain ⟨h, P, eh, h0, eP, P0, hcase⟩ := sin_cos_cases hf (is_fin x z) hx.rep hn hm
  have hu : (0:ℝ) < uro f := by exact_mod_cast uro_pos f
  have hu7 : (uro f:ℝ) ≤ 1 / 10 ^ 7 := by have := (Rat.cast_le (K := ℝ)).2 (uro_le7 f); push_cast at this; exact this
  have h0' : (15 / 10 : ℝ) ≤ h := by have := (Rat.cast_le (K := ℝ)).2 h0; push_cast at this; exact this
  have P0' : (3 : ℝ) ≤ P := by have := (Rat.cast_le (K := ℝ)).2 P0; push_cast at this; exact this
  obtain ⟨w1, e1⟩ := is_i (f := f) (n := 1) (by norm_num)
  obtain ⟨w0, e0⟩ := is_i (f := f) (n := 0) (by norm_num)
  obtain ⟨m1, em1⟩ := (is_i (f := f) (n := 1) (by norm_num)).neg
  obtain ⟨m0, em0⟩ := (is_i (f := f) (n := 0) (by norm_num)).neg
  rw [← uro_eq]
  have kh : |1 - Real.sin h| ≤ 32 / 10 * uro f := by
    have := abs_sin_sub_le (Real.pi / 2) h
    rw [Real.sin_pi_div_two, abs_sub_comm (Real.pi / 2)] at this; exact this.trans eh
  have kP : |Real.sin P| ≤ 64 / 10 * uro f := by
    have := abs_sin_sub_le P Real.pi
    rw [Real.sin_pi, sub_zero] at this; exact this.trans eP
  rcases hcase with ⟨c, e, -⟩ | ⟨c, e, -⟩ | ⟨c, e, -⟩ | ⟨c, e, -⟩ | ⟨t, et, ⟨r, θ, it, ht, hc, hb, hr64, hrn⟩, e, -⟩
  · refine ⟨1, w1, by rw [e, e1]; simp, .inl ?_⟩
    rw [c, abs_of_pos (show (0:ℝ) < h by linarith), Rat.cast_one]
    nlinarith
  · refine ⟨-1, m1, by rw [e, em1]; simp, .inl ?_⟩
    rw [c]; push_cast
    rw [Real.sin_neg, abs_neg, abs_of_pos (show (0:ℝ) < h by linarith), neg_sub_neg, abs_sub_comm]
    nlinarith
  · refine ⟨0, w0, by rw [e, e0]; simp, .inl ?_⟩
    rw [c, abs_of_pos (show (0:ℝ) < P by linarith), Rat.cast_zero, zero_sub, abs_neg]
    nlinarith
  · refine ⟨0, m0, by rw [e, em0]; simp, .inl ?_⟩
    rw [c]; push_cast
    rw [Real.sin_neg, abs_neg, abs_of_pos (show (0:ℝ) < P by linarith), zero_sub, neg_neg]
    nlinarith
  · have hrn' : r = 0 ∨ minNormal f ≤ |r| := by
      rcases hrn with h | h | h
      · exact .inl h
      · exact .inr h
      · right; rw [h, abs_div, abs_of_pos (show (0:ℚ) < 2 by norm_num)]; linarith
    obtain ⟨s, ⟨w, is⟩, es⟩ := sin_compute_err it hr64 hrn'
    refine ⟨s, w, by rw [e, is], pole_split _ _ et it ?_⟩
    have es' := (Rat.cast_le (K := ℝ)).2 es
    push_cast at es'
    rw [← sin_two_mul_of_tan ht hc] at es'
    have hp0 := poleErr_nonneg f r
    have hp1 := poleErr_le f r
    have hE : |2 * θ - x| ≤ 2002 / 100 * uro f * |(x:ℝ)| + 2 * poleErr f r := by
      have k : 2 * θ - x = 2 * (θ - ((x / 2 : ℚ) : ℝ)) := by push_cast; ring
      rw [k, abs_mul, abs_of_pos (show (0:ℝ) < 2 by norm_num)]
      have k2 : |((x / 2 : ℚ) : ℝ)| = |(x:ℝ)| / 2 := by push_cast; rw [abs_div, abs_of_pos (show (0:ℝ) < 2 by norm_num)]
      rw [k2, wro_real, ← uro_eq] at hb
      linarith
    have hS := abs_sin_sub_le (2 * θ) x
    have hS' := abs_sub_abs_le_abs_sub (Real.sin (2 * θ)) (Real.sin x)
    have hsx : |Real.sin x| ≤ |(x:ℝ)| := Real.abs_sin_le_abs
    generalize poleErr f r = p at *
    generalize Real.sin (2 * θ) = S at *
    generalize Real.sin x = S' at *
    have k1 : |(s:ℝ) - S'| ≤ |(s:ℝ) - S| + |S - S'| := by
      have := abs_add_le ((s:ℝ) - S) (S - S'); rwa [sub_add_sub_cancel] at this
    have hX := abs_nonneg (x:ℝ)
    generalize |(x:ℝ)| = X at *
    have k2 : |S| ≤ X + (2002 / 100 * uro f * X + 2 * p) := by linarith
    have k3 : (uro f:ℝ) * |S| ≤ uro f * (X + (2002 / 100 * uro f * X + 2 * p)) := mul_le_mul_of_nonneg_left k2 hu.le
    have k4 : (uro f * X:ℝ) * uro f ≤ (uro f * X) * (1 / 10 ^ 7) := mul_le_mul_of_nonneg_left hu7 (by positivity)
    have k5 : p * uro f ≤ p * (1 / 10 ^ 7) := mul_le_mul_of_nonneg_left hu7 hp0
    have k6 : 0 ≤ (uro f * X:ℝ) := by positivity
    linarith

/-- C43: error of the cosine -/
theorem C43_cos (hf : f.exact = false) (x : ℚ) (z : Bool) (hx : Valid (fin x z : FV f)) (hn : 2 * minNormal f ≤ |x|)
    (hm : |x| ≤ 2 ^ 20) :
    ∃ r w, cos (fin x z : FV f) = .ok (fin r w) ∧
      (|(r:ℝ) - Real.cos x| ≤ 201 / 10 * (1 / 2 ^ f.prec) * |(x:ℝ)| + 37 / 10 * (1 / 2 ^ f.prec) ∨
        (f.ty = .ldouble ∧ (∃ t w, tan (fin x z / i 2 : FV f) = .ok (fin t w) ∧ |t| = 16331240000000000) ∧
          |(r:ℝ) - Real.cos x| ≤ 201 / 10 * (1 / 2 ^ f.prec) * |(x:ℝ)| + 37 / 10 * (1 / 2 ^ f.prec) + 1 / 2 ^ 51)) := by
  obtain ⟨h, P, eh, h0, eP, P0, hcase⟩ := sin_cos_cases hf (is_fin x z) hx.rep hn hm
  have hu : (0:ℝ) < uro f := by exact_mod_cast uro_pos f
  have h0' : (15 / 10 : ℝ) ≤ h := by have := (Rat.cast_le (K := ℝ)).2 h0; push_cast at this; exact this
  have P0' : (3 : ℝ) ≤ P := by have := (Rat.cast_le (K := ℝ)).2 P0; push_cast at this; exact this
  obtain ⟨w1, e1⟩ := is_i (f := f) (n := 1) (by norm_num)
  obtain ⟨w0, e0⟩ := is_i (f := f) (n := 0) (by norm_num)
  obtain ⟨m1, em1⟩ := (is_i (f := f) (n := 1) (by norm_num)).neg
  obtain ⟨m0, em0⟩ := (is_i (f := f) (n := 0) (by norm_num)).neg
  rw [← uro_eq]
  have kh : |Real.cos h| ≤ 32 / 10 * uro f := by
    have := abs_cos_sub_le h (Real.pi / 2)
    rw [Real.cos_pi_div_two, sub_zero] at this; exact this.trans eh
  have kP : |-1 - Real.cos P| ≤ 64 / 10 * uro f := by
    have := abs_cos_sub_le Real.pi P
    rw [Real.cos_pi, abs_sub_comm Real.pi] at this; exact this.trans eP
  rcases hcase with ⟨c, -, e⟩ | ⟨c, -, e⟩ | ⟨c, -, e⟩ | ⟨c, -, e⟩ | ⟨t, et, ⟨r, θ, it, ht, hc, hb, hr64, hrn⟩, -, e⟩
  · refine ⟨0, w0, by rw [e, e0]; simp, .inl ?_⟩
    rw [c, abs_of_pos (show (0:ℝ) < h by linarith), Rat.cast_zero, zero_sub, abs_neg]
    nlinarith
  · refine ⟨0, w0, by rw [e, e0]; simp, .inl ?_⟩
    rw [c]; push_cast
    rw [Real.cos_neg, abs_neg, abs_of_pos (show (0:ℝ) < h by linarith), zero_sub, abs_neg]
    nlinarith
  · refine ⟨-1, m1, by rw [e, em1]; simp, .inl ?_⟩
    rw [c, abs_of_pos (show (0:ℝ) < P by linarith)]; push_cast
    nlinarith
  · refine ⟨-1, m1, by rw [e, em1]; simp, .inl ?_⟩
    rw [c]; push_cast
    rw [Real.cos_neg, abs_neg, abs_of_pos (show (0:ℝ) < P by linarith)]
    nlinarith
  · obtain ⟨s, ⟨w, is⟩, es⟩ := cos_compute_err it hr64
    refine ⟨s, w, by rw [e, is], pole_split _ _ et it ?_⟩
    have es' := (Rat.cast_le (K := ℝ)).2 es
    push_cast at es'
    rw [← cos_two_mul_of_tan ht hc] at es'
    have hp0 := poleErr_nonneg f r
    have hE : |2 * θ - x| ≤ 2002 / 100 * uro f * |(x:ℝ)| + 2 * poleErr f r := by
      have k : 2 * θ - x = 2 * (θ - ((x / 2 : ℚ) : ℝ)) := by push_cast; ring
      rw [k, abs_mul, abs_of_pos (show (0:ℝ) < 2 by norm_num)]
      have k2 : |((x / 2 : ℚ) : ℝ)| = |(x:ℝ)| / 2 := by push_cast; rw [abs_div, abs_of_pos (show (0:ℝ) < 2 by norm_num)]
      rw [k2, wro_real, ← uro_eq] at hb
      linarith
    have hS := abs_cos_sub_le (2 * θ) x
    have k1 : |(s:ℝ) - Real.cos x| ≤ |(s:ℝ) - Real.cos (2 * θ)| + |Real.cos (2 * θ) - Real.cos x| := by
      have := abs_add_le ((s:ℝ) - Real.cos (2 * θ)) (Real.cos (2 * θ) - Real.cos x); rwa [sub_add_sub_cancel] at this
    have k6 : 0 ≤ (uro f * |(x:ℝ)|:ℝ) := by positivity
    linarith

/-- C43: in `float` and `double` neither alternative arises. -/
theorem C43_float_double (hf : f.exact = false) (hty : f.ty ≠ .ldouble) (x : ℚ) (z : Bool) (hx : Valid (fin x z : FV f))
    (hn : 2 * minNormal f ≤ |x|) (hm : |x| ≤ 2 ^ 20) :
    ∃ t tz s sz c cz θ, tan (fin x z : FV f) = .ok (fin t tz) ∧ sin (fin x z : FV f) = .ok (fin s sz) ∧
      cos (fin x z : FV f) = .ok (fin c cz) ∧ Real.tan θ = t ∧ Real.cos θ ≠ 0 ∧
      |θ - x| ≤ 201 / 10 * (1 / 2 ^ f.prec) * |(x:ℝ)| ∧
      |(s:ℝ) - Real.sin x| ≤ 25 * (1 / 2 ^ f.prec) * |(x:ℝ)| ∧
      |(c:ℝ) - Real.cos x| ≤ 201 / 10 * (1 / 2 ^ f.prec) * |(x:ℝ)| + 37 / 10 * (1 / 2 ^ f.prec) := by
  obtain ⟨t, tz, θ, e1, h1, h2, h3⟩ := C43_tan hf x z hx (by linarith [FV.minNormal_pos f]) hm
  obtain ⟨s, sz, e2, h4⟩ := C43_sin hf x z hx hn hm
  obtain ⟨c, cz, e3, h5⟩ := C43_cos hf x z hx hn hm
  exact ⟨t, tz, s, sz, c, cz, θ, e1, e2, e3, h1, h2, h3.resolve_right (fun h => hty h.1), h4.resolve_right (fun h => hty h.1),
    h5.resolve_right (fun h => hty h.1)⟩

/-- C43: relative error of the tangent on `[-1, 1]` -/
theorem C43_tan_unit (hf : f.exact = false) (x : ℚ) (z : Bool) (hx : Valid (fin x z : FV f)) (hn : minNormal f ≤ |x|)
    (hm : |x| ≤ 1) :
    ∃ r w, tan (fin x z : FV f) = .ok (fin r w) ∧ |(r:ℝ) - Real.tan x| ≤ 81 * (1 / 2 ^ f.prec) * |Real.tan x| := by
  obtain ⟨r, w, θ, e, ht, hc, hb⟩ := C43_tan hf x z hx hn (hm.trans (by norm_num))
  refine ⟨r, w, e, ?_⟩
  rw [← uro_eq] at hb ⊢
  have hu : (0:ℝ) < uro f := by exact_mod_cast uro_pos f
  have hu7 : (uro f:ℝ) ≤ 1 / 10 ^ 7 := by have := (Rat.cast_le (K := ℝ)).2 (uro_le7 f); push_cast at this; exact this
  have hm' : |(x:ℝ)| ≤ 1 := by exact_mod_cast hm
  have hX := abs_nonneg (x:ℝ)
  have kx : (uro f:ℝ) * |(x:ℝ)| ≤ 1 / 10 ^ 7 * 1 := mul_le_mul hu7 hm' hX (by norm_num)
  have hcx : 1 / 2 ≤ Real.cos x := by
    have := Real.one_sub_sq_div_two_le_cos (x := x)
    have h2 : (x:ℝ) ^ 2 ≤ 1 := by rw [← sq_abs]; nlinarith
    linarith
  have habs := abs_cos_sub_le θ x
  have main : |θ - x| ≤ 201 / 10 * uro f * |(x:ℝ)| := by
    rcases hb with h | ⟨-, hr, h⟩
    · exact h
    · exfalso
      have h9 : |θ - x| ≤ 1 / 10 ^ 5 := h.trans (by norm_num at kx ⊢; linarith)
      have hcθ : 49 / 100 ≤ Real.cos θ := by have := (abs_le.1 (habs.trans h9)).1; norm_num at this; linarith
      have hr' : |Real.tan θ| = 16331240000000000 := by rw [ht]; exact_mod_cast hr
      rw [Real.tan_eq_sin_div_cos, abs_div, abs_of_pos (show 0 < Real.cos θ by linarith), div_eq_iff (by linarith)] at hr'
      have := Real.abs_sin_le_one θ
      nlinarith
  have h9 : |θ - x| ≤ 1 / 10 ^ 5 := main.trans (by norm_num at kx ⊢; linarith)
  have hcθ : 499 / 1000 ≤ Real.cos θ := by have := (abs_le.1 (habs.trans h9)).1; norm_num at this; linarith
  rw [← ht]
  have k1 : Real.tan θ - Real.tan x = Real.sin (θ - x) / (Real.cos θ * Real.cos x) := by
    rw [Real.tan_eq_sin_div_cos, Real.tan_eq_sin_div_cos, Real.sin_sub]
    have : Real.cos (x:ℝ) ≠ 0 := by linarith
    field_simp
  have hcc : (2495 / 10000 : ℝ) ≤ Real.cos θ * Real.cos x := by nlinarith
  rw [k1, abs_div, abs_of_pos (show 0 < Real.cos θ * Real.cos x by linarith), div_le_iff₀ (by linarith)]
  have k2 : |Real.sin (θ - x)| ≤ |θ - x| := Real.abs_sin_le_abs
  have k3 : |(x:ℝ)| ≤ |Real.tan x| := by
    rcases le_total 0 (x:ℝ) with h | h
    · rw [abs_of_nonneg h] at hm' ⊢
      exact (Real.le_tan h (by linarith [pi_bounds.1])).trans (le_abs_self _)
    · rw [abs_of_nonpos h] at hm' ⊢
      have := Real.le_tan (x := -x) (by linarith) (by linarith [pi_bounds.1])
      rw [Real.tan_neg] at this
      exact this.trans (neg_le_abs _)
  have k4 : (uro f:ℝ) * |(x:ℝ)| ≤ uro f * |Real.tan x| := mul_le_mul_of_nonneg_left k3 hu.le
  have k5 : 81 * (uro f * |Real.tan x|) * (2495 / 10000) ≤ 81 * (uro f * |Real.tan x|) * (Real.cos θ * Real.cos x) :=
    mul_le_mul_of_nonneg_left hcc (by positivity)
  have k6 : (0:ℝ) ≤ uro f * |Real.tan x| := by positivity
  linarith

/-- C43: the bound on `2·min()` is needed: at `min()` the sine is flushed to zero. -/
theorem C43_sin_flush : ∀ ty : FTy, sin (fin (minNormal ⟨ty, false⟩) false : FV ⟨ty, false⟩) = .ok (fin 0 false) := by
  intro ty; cases ty <;> decide +kernel

/-- `2` in `double` -/
example : ∃ t tz s sz c cz θ, tan (fin 2 false : FV binary64) = .ok (fin t tz) ∧ sin (fin 2 false : FV binary64) = .ok (fin s sz) ∧
      cos (fin 2 false : FV binary64) = .ok (fin c cz) ∧ Real.tan θ = t ∧ Real.cos θ ≠ 0 ∧
      |θ - (2:ℚ)| ≤ 201 / 10 * (1 / 2 ^ 53) * |((2:ℚ):ℝ)| ∧
      |(s:ℝ) - Real.sin (2:ℚ)| ≤ 25 * (1 / 2 ^ 53) * |((2:ℚ):ℝ)| ∧
      |(c:ℝ) - Real.cos (2:ℚ)| ≤ 201 / 10 * (1 / 2 ^ 53) * |((2:ℚ):ℝ)| + 37 / 10 * (1 / 2 ^ 53) :=
  C43_float_double (f := binary64) rfl (by decide) 2 false (by decide +kernel) (by decide +kernel) (by decide +kernel)

/-- a negative argument far out, in `float`: the reduction is exercised -/
example : ∃ r w, sin (fin (-1000000) false : FV binary32) = .ok (fin r w) ∧
    |(r:ℝ) - Real.sin (-1000000 : ℚ)| ≤ 25 * (1 / 2 ^ 24) * |((-1000000 : ℚ):ℝ)| := by
  obtain ⟨r, w, e, h⟩ := C43_sin (f := binary32) rfl (-1000000) false (by decide +kernel) (by decide +kernel) (by norm_num)
  exact ⟨r, w, e, h.resolve_right (fun h => by have := h.1; revert this; decide)⟩

/-- `tan(1)` in `long double` -/
example : ∃ r w, tan (fin 1 false : FV x87) = .ok (fin r w) ∧ |(r:ℝ) - Real.tan (1:ℚ)| ≤ 81 * (1 / 2 ^ 64) * |Real.tan (1:ℚ)| :=
  C43_tan_unit (f := x87) rfl 1 false (by decide +kernel) (by decide +kernel) (by norm_num)

end Gcem.Props
