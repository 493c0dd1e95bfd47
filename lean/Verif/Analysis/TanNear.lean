import Verif.Analysis.TanCf
import Verif.Analysis.Consts
import Verif.Analysis.LogSplit

/-!
# The tangent next to its pole: the five term Laurent series `tan_series_exp_long`
-/

namespace Gcem
open FV
variable {f : Fmt}

/-- the polynomial `−z · (−1/z + z/3 + z³/45 + 2z⁵/945 + z⁷/4725)` -/
noncomputable def cotP (z : ℝ) : ℝ := 1 - z ^ 2 / 3 - z ^ 4 / 45 - 2 * z ^ 6 / 945 - z ^ 8 / 4725

theorem tanB_five_le {x : ℝ} (hx : 0 < x) (hb : x ≤ 315 / 100) : tanB 5 x ≤ x ^ 11 / 2835 := by
  have k := tanK_bounds hx hb
  have b1 : tanB 1 x = tanK x * x ^ 3 := by unfold tanK; field_simp
  have c1 : tanB 1 x ≤ x ^ 3 / 3 := by
    rw [b1]; have := mul_le_mul_of_nonneg_right k.2 (show 0 ≤ x ^ 3 by positivity); linarith
  have st : ∀ n : ℕ, (2 * (n:ℝ) + 3) * tanB (n + 2) x ≤ x ^ 2 * tanB (n + 1) x := by
    intro n
    have h := (tanT_bounds n hx hb).1
    unfold tanT at h
    rw [show n + 3 - 2 = n + 1 by omega, show n + 3 - 1 = n + 1 + 1 by omega, le_div_iff₀ (tanB_pos (n + 1) hx hb)] at h
    exact h
  have s0 : 0 ≤ x ^ 2 := sq_nonneg x
  have h0 := st 0
  have h1 := mul_le_mul_of_nonneg_left (st 1) s0
  have h2 := mul_le_mul_of_nonneg_left (st 2) s0
  have h3 := st 3
  norm_num at h0 h1 h2 h3
  have d2 : tanB 2 x ≤ x ^ 5 / 9 := by
    have := mul_le_mul_of_nonneg_left c1 s0
    have e : x ^ 2 * (x ^ 3 / 3) = x ^ 5 / 3 := by ring
    linarith
  have d3 : tanB 3 x ≤ x ^ 7 / 45 := by
    have := mul_le_mul_of_nonneg_left d2 s0
    have e : x ^ 2 * (x ^ 5 / 9) = x ^ 7 / 9 := by ring
    have := st 1
    norm_num at this
    linarith
  have d4 : tanB 4 x ≤ x ^ 9 / 315 := by
    have := mul_le_mul_of_nonneg_left d3 s0
    have e : x ^ 2 * (x ^ 7 / 45) = x ^ 9 / 45 := by ring
    have := st 2
    norm_num at this
    linarith
  have := mul_le_mul_of_nonneg_left d4 s0
  have e : x ^ 2 * (x ^ 9 / 315) = x ^ 11 / 315 := by ring
  linarith

theorem cotP_err {z : ℝ} (h : |z| ≤ 1 / 25) : |z * Real.cos z - cotP z * Real.sin z| ≤ |z| / 10 ^ 18 := by
  have key : ∀ z : ℝ, 0 < z → z ≤ 1 / 25 → |z * Real.cos z - cotP z * Real.sin z| ≤ z / 10 ^ 18 := by
    intro z z0 z1
    have hB := tanB_five_le z0 (by linarith)
    have hB0 := tanB_pos 4 z0 (show z ≤ 315 / 100 by linarith)
    have eB : tanB 5 z = (945 - 420 * z ^ 2 + 15 * z ^ 4) * Real.sin z - (945 - 105 * z ^ 2 + z ^ 4) * (z * Real.cos z) := by
      simp only [tanB]; push_cast; ring
    have id : (945 - 105 * z ^ 2 + z ^ 4) * (z * Real.cos z - cotP z * Real.sin z) =
        -(z ^ 10 * (19 / 945 - z ^ 2 / 4725) * Real.sin z) - tanB 5 z := by
      rw [eB]; unfold cotP; ring
    have z2 : z ^ 2 ≤ 1 / 625 := by nlinarith
    have Q : 900 ≤ 945 - 105 * z ^ 2 + z ^ 4 := by have : 0 ≤ z ^ 4 := by positivity
                                                   linarith
    have s1 : Real.sin z ≤ z := Real.sin_le z0.le
    have s0 : 0 ≤ Real.sin z := Real.sin_nonneg_of_nonneg_of_le_pi z0.le (by have := pi_bounds; linarith)
    have r0 : 0 ≤ 19 / 945 - z ^ 2 / 4725 := by linarith
    have z10 : z ^ 10 ≤ (1 / 25) ^ 10 := pow_le_pow_left₀ z0.le z1 10
    have hz10 : 0 ≤ z ^ 10 := by positivity
    have a1 : z ^ 10 * (19 / 945 - z ^ 2 / 4725) * Real.sin z ≤ (1 / 25) ^ 10 * (19 / 945) * z :=
      mul_le_mul (mul_le_mul z10 (by linarith [sq_nonneg z]) r0 (by positivity)) s1 s0 (by positivity)
    have a0 : 0 ≤ z ^ 10 * (19 / 945 - z ^ 2 / 4725) * Real.sin z := by positivity
    have a2 : z ^ 11 / 2835 ≤ (1 / 25) ^ 10 * z / 2835 := by
      have := mul_le_mul_of_nonneg_right z10 z0.le
      rw [pow_succ]; linarith
    have tot : (945 - 105 * z ^ 2 + z ^ 4) * |z * Real.cos z - cotP z * Real.sin z| ≤ 900 * (z / 10 ^ 18) := by
      rw [← abs_of_pos (show 0 < 945 - 105 * z ^ 2 + z ^ 4 by linarith), ← abs_mul, id, abs_le]
      norm_num at a1 a2 ⊢
      constructor <;> linarith
    have h1 := mul_le_mul_of_nonneg_right Q (abs_nonneg (z * Real.cos z - cotP z * Real.sin z))
    linarith
  rcases lt_trichotomy z 0 with h0 | h0 | h0
  · have := key (-z) (by linarith) (by rw [abs_of_neg h0] at h; exact h)
    have e : -z * Real.cos (-z) - cotP (-z) * Real.sin (-z) = -(z * Real.cos z - cotP z * Real.sin z) := by
      rw [Real.cos_neg, Real.sin_neg]; unfold cotP; ring
    rw [e, abs_neg] at this
    rwa [abs_of_neg h0]
  · rw [h0]; simp
  · rw [abs_of_pos h0] at h ⊢; exact key z h0 h

/-- the angle of a slightly perturbed Laurent series -/
theorem cot_backward {z ε : ℝ} (h : |z| ≤ 1 / 25) (hz : z ≠ 0) (hε : |ε| ≤ 1 / 1000) :
    ∃ θ, Real.tan θ = -(cotP z / z) * (1 + ε) ∧ Real.cos θ ≠ 0 ∧ |θ - (z + Real.pi / 2)| ≤ 101 / 100 * (|ε| + 1 / 10 ^ 18) * |z| := by
  have z2 : z ^ 2 ≤ 1 / 625 := by
    rw [← sq_abs]; have := pow_le_pow_left₀ (abs_nonneg z) h 2; norm_num at this ⊢; exact this
  have hz2 := sq_nonneg z
  have p1 : cotP z ≤ 1 := by
    unfold cotP
    have : 0 ≤ z ^ 4 := by positivity
    have : 0 ≤ z ^ 6 := by positivity
    have : 0 ≤ z ^ 8 := by positivity
    linarith
  have p0 : 999 / 1000 ≤ cotP z := by
    unfold cotP
    have e4 : z ^ 4 ≤ 1 / 625 * z ^ 2 := by rw [show z ^ 4 = z ^ 2 * z ^ 2 by ring]; exact mul_le_mul_of_nonneg_right z2 hz2
    have e6 : z ^ 6 ≤ 1 / 625 * z ^ 2 := by
      rw [show z ^ 6 = z ^ 4 * z ^ 2 by ring]; exact mul_le_mul_of_nonneg_right (by linarith) hz2
    have e8 : z ^ 8 ≤ 1 / 625 * z ^ 2 := by
      rw [show z ^ 8 = z ^ 6 * z ^ 2 by ring]; exact mul_le_mul_of_nonneg_right (by linarith) hz2
    linarith
  have sX : Real.sin (z + Real.pi / 2) = Real.cos z := Real.sin_add_pi_div_two z
  have cX : Real.cos (z + Real.pi / 2) = -Real.sin z := Real.cos_add_pi_div_two z
  have cz : 998 / 1000 ≤ Real.cos z := by have := Real.one_sub_sq_div_two_le_cos (x := z); linarith
  have zs : 0 ≤ z * Real.sin z := by
    rcases le_total 0 z with h0 | h0
    · exact mul_nonneg h0 (Real.sin_nonneg_of_nonneg_of_le_pi h0 (by have := pi_bounds; have := (abs_le.1 h).2; linarith))
    · have := Real.sin_nonneg_of_nonneg_of_le_pi (x := -z) (by linarith) (by have := pi_bounds; have := (abs_le.1 h).1; linarith)
      rw [Real.sin_neg] at this
      nlinarith
  have he := abs_le.1 hε
  have hP : 995 / 1000 ≤ cotP z * (1 + ε) * Real.sin (z + Real.pi / 2) + (-z) * Real.cos (z + Real.pi / 2) := by
    rw [sX, cX]
    have h1 : 999 / 1000 * (999 / 1000) ≤ cotP z * (1 + ε) := mul_le_mul p0 (by linarith) (by norm_num) (by linarith)
    have h2 : 999 / 1000 * (999 / 1000) * (998 / 1000) ≤ cotP z * (1 + ε) * Real.cos z := mul_le_mul h1 cz (by norm_num) (le_trans (by norm_num) h1)
    norm_num at h2 ⊢
    linarith
  obtain ⟨θ, t1, t2, t3⟩ := tan_backward (x := z + Real.pi / 2) (N := cotP z * (1 + ε)) (D := -z) (neg_ne_zero.2 hz) (lt_of_lt_of_le (by norm_num) hP)
  refine ⟨θ, by rw [t1]; field_simp, t2, t3.trans ?_⟩
  rw [div_le_iff₀ (lt_of_lt_of_le (by norm_num) hP)]
  have eX : cotP z * (1 + ε) * Real.cos (z + Real.pi / 2) - (-z) * Real.sin (z + Real.pi / 2) =
      (z * Real.cos z - cotP z * Real.sin z) + -(ε * (cotP z * Real.sin z)) := by rw [sX, cX]; ring
  rw [eX]
  have b1 : |-(ε * (cotP z * Real.sin z))| ≤ |ε| * |z| := by
    rw [abs_neg, abs_mul, abs_mul]
    refine mul_le_mul_of_nonneg_left ?_ (abs_nonneg _)
    calc |cotP z| * |Real.sin z| ≤ 1 * |z| := mul_le_mul (by rw [abs_of_pos (by linarith)]; exact p1) Real.abs_sin_le_abs (abs_nonneg _) (by norm_num)
      _ = |z| := one_mul _
  have b2 := cotP_err h
  have b3 := abs_add_le (z * Real.cos z - cotP z * Real.sin z) (-(ε * (cotP z * Real.sin z)))
  have c0 : 0 ≤ 101 / 100 * (|ε| + 1 / 10 ^ 18) * |z| := by positivity
  have c1 := mul_le_mul_of_nonneg_left hP c0
  have c2 : 0 ≤ |ε| * |z| := by positivity
  have c3 : 0 ≤ |z| / 10 ^ 18 := by positivity
  have c4 : 101 / 100 * (|ε| + 1 / 10 ^ 18) * |z| * (995 / 1000) = 100495 / 100000 * (|ε| * |z| + |z| / 10 ^ 18) := by ring
  rw [c4] at c1
  linarith

/-! ## Rounding error of the series -/

theorem emin_uro (f : Fmt) : pow2 f.emin / 2 ≤ uro f * (2 * uro f) / 2 ^ 20 := by
  unfold uro; rcases f with ⟨⟨⟩, ⟨⟩⟩ <;> decide +kernel

/-- one rounding, in units of `u |z|` -/
theorem rnd_mu {z q M : ℚ} (hz : 2 * uro f ≤ |z|) (hq : |q| ≤ M * |z|) : |rnd f q - q| ≤ (M + 1 / 2 ^ 20) * (uro f * |z|) := by
  have h := rnd_err_all (f := f) q
  have h1 := emin_uro f
  have hu := uro_pos f
  have h2 := mul_le_mul_of_nonneg_left hz hu.le
  have h3 := mul_le_mul_of_nonneg_left hq hu.le
  refine h.trans ?_
  have : (M + 1 / 2 ^ 20) * (uro f * |z|) = uro f * (M * |z|) + uro f * |z| / 2 ^ 20 := by ring
  rw [this]
  have : uro f * (2 * uro f) / 2 ^ 20 ≤ uro f * |z| / 2 ^ 20 := div_le_div_of_nonneg_right h2 (by norm_num)
  linarith

/-- value with error in units of `u |z|`, and size in units of `|z|` -/
def Mu (z : ℚ) (v : FV f) (q e M : ℚ) : Prop :=
  ∃ r, Is v r ∧ Rep f r ∧ |r - q| ≤ e * (uro f * |z|) ∧ |q| ≤ M * |z|

theorem uro_le7 (f : Fmt) : uro f ≤ 1 / 10 ^ 7 := by
  unfold uro; rcases f with ⟨⟨⟩, ⟨⟩⟩ <;> decide +kernel

section
variable {z : ℚ}

theorem mu_size {q r e M : ℚ} (e0 : 0 ≤ e) (h : |r - q| ≤ e * (uro f * |z|)) (hq : |q| ≤ M * |z|) :
    |r| ≤ (M + e / 10 ^ 7) * |z| := by
  have h1 : |r| ≤ |r - q| + |q| := by have := abs_add_le (r - q) q; rwa [sub_add_cancel] at this
  have h2 : e * (uro f * |z|) ≤ e * (1 / 10 ^ 7 * |z|) :=
    mul_le_mul_of_nonneg_left (mul_le_mul_of_nonneg_right (uro_le7 f) (abs_nonneg z)) e0
  have : (M + e / 10 ^ 7) * |z| = M * |z| + e * (1 / 10 ^ 7 * |z|) := by ring
  rw [this]; linarith

/-- rounding the exact result of an operation on approximate operands -/
theorem mu_round {v : FV f} {q q' e₀ M M' e : ℚ} (hz : 2 * uro f ≤ |z|) (hz1 : |z| ≤ 1 / 30) (hM' : M' ≤ 100)
    (hv : overflows f (rnd f q') = false → Is v (rnd f q')) (hq : |q| ≤ M * |z|) (h : |q' - q| ≤ e₀ * (uro f * |z|)) (hq' : |q'| ≤ M' * |z|)
    (he : e₀ + M' + 1 / 2 ^ 20 ≤ e) : Mu z v q e M := by
  refine ⟨rnd f q', hv (nov ?_), rep_rnd _ _, ?_, hq⟩
  · refine hq'.trans ?_
    have := mul_le_mul_of_nonneg_right hM' (abs_nonneg z)
    refine this.trans (le_trans ?_ (show (100:ℚ) ≤ 2 ^ 127 by norm_num))
    linarith
  · have h1 := rnd_mu hz hq'
    have h2 := abs_add_le (rnd f q' - q') (q' - q)
    rw [sub_add_sub_cancel] at h2
    have h3 : (0:ℚ) ≤ uro f * |z| := mul_nonneg (uro_pos f).le (abs_nonneg z)
    have h4 := mul_le_mul_of_nonneg_right he h3
    have h5 : (e₀ + M' + 1 / 2 ^ 20) * (uro f * |z|) = e₀ * (uro f * |z|) + (M' + 1 / 2 ^ 20) * (uro f * |z|) := by ring
    linarith

theorem Mu.mul {v w : FV f} {a b e₁ e₂ M₁ M₂ e M : ℚ} (hz : 2 * uro f ≤ |z|) (hz1 : |z| ≤ 1 / 30) (h1 : Mu z v a e₁ M₁) (h2 : Mu z w b e₂ M₂)
    (e10 : 0 ≤ e₁) (e20 : 0 ≤ e₂) (M10 : 0 ≤ M₁) (M20 : 0 ≤ M₂) (hM : M₁ * M₂ / 30 ≤ M)
    (hs : (M₁ + e₁ / 10 ^ 7) * (M₂ + e₂ / 10 ^ 7) / 30 ≤ 100)
    (he : (e₁ * (M₂ + e₂ / 10 ^ 7) + M₁ * e₂) / 30 + (M₁ + e₁ / 10 ^ 7) * (M₂ + e₂ / 10 ^ 7) / 30 + 1 / 2 ^ 20 ≤ e) :
    Mu z (v * w) (a * b) e M := by
  obtain ⟨r, hr, -, hra, ha⟩ := h1
  obtain ⟨t, ht, -, htb, hb⟩ := h2
  have z0 := abs_nonneg z
  have zz : |z| * |z| ≤ 1 / 30 * |z| := mul_le_mul_of_nonneg_right hz1 z0
  have u0 : (0:ℚ) ≤ uro f * |z| := mul_nonneg (uro_pos f).le z0
  have sr := mu_size (f := f) e10 hra ha
  have st := mu_size (f := f) e20 htb hb
  refine mu_round (M' := (M₁ + e₁ / 10 ^ 7) * (M₂ + e₂ / 10 ^ 7) / 30) (e₀ := (e₁ * (M₂ + e₂ / 10 ^ 7) + M₁ * e₂) / 30) (q' := r * t) hz hz1 hs
    (fun h => hr.mul ht h) ?_ ?_ ?_ he
  · rw [abs_mul]
    have := mul_le_mul ha hb (abs_nonneg _) (by positivity)
    have h3 := mul_le_mul_of_nonneg_left zz (show 0 ≤ M₁ * M₂ by positivity)
    have h4 := mul_le_mul_of_nonneg_right hM z0
    linarith
  · have e : r * t - a * b = (r - a) * t + a * (t - b) := by ring
    rw [e]
    refine (abs_add_le _ _).trans ?_
    rw [abs_mul, abs_mul]
    have h5 := mul_le_mul hra st (abs_nonneg _) (by positivity)
    have h6 := mul_le_mul ha htb (abs_nonneg _) (by positivity)
    have h7 := mul_le_mul_of_nonneg_left hz1 (show 0 ≤ (e₁ * (M₂ + e₂ / 10 ^ 7) + M₁ * e₂) * (uro f * |z|) by positivity)
    linarith
  · rw [abs_mul]
    have := mul_le_mul sr st (abs_nonneg _) (by positivity)
    have h3 := mul_le_mul_of_nonneg_left zz (show 0 ≤ (M₁ + e₁ / 10 ^ 7) * (M₂ + e₂ / 10 ^ 7) by positivity)
    linarith

theorem Mu.add {v w : FV f} {a b e₁ e₂ M₁ M₂ e M : ℚ} (hz : 2 * uro f ≤ |z|) (hz1 : |z| ≤ 1 / 30) (h1 : Mu z v a e₁ M₁) (h2 : Mu z w b e₂ M₂)
    (e10 : 0 ≤ e₁) (e20 : 0 ≤ e₂) (hM : M₁ + M₂ ≤ M) (hs : M₁ + M₂ + (e₁ + e₂) / 10 ^ 7 ≤ 100)
    (he : e₁ + e₂ + (M₁ + M₂ + (e₁ + e₂) / 10 ^ 7) + 1 / 2 ^ 20 ≤ e) : Mu z (v + w) (a + b) e M := by
  obtain ⟨r, hr, -, hra, ha⟩ := h1
  obtain ⟨t, ht, -, htb, hb⟩ := h2
  have z0 := abs_nonneg z
  have sr := mu_size (f := f) e10 hra ha
  have st := mu_size (f := f) e20 htb hb
  refine mu_round (M' := M₁ + M₂ + (e₁ + e₂) / 10 ^ 7) (e₀ := e₁ + e₂) (q' := r + t) hz hz1 hs (fun h => hr.add ht h) ?_ ?_ ?_ he
  · have h4 := mul_le_mul_of_nonneg_right hM z0
    exact (abs_add_le _ _).trans (by linarith)
  · rw [show r + t - (a + b) = (r - a) + (t - b) by ring]
    exact (abs_add_le _ _).trans (by linarith)
  · exact (abs_add_le _ _).trans (by linarith)

theorem Mu.divi {v : FV f} {a e₁ M₁ e M : ℚ} {n : ℤ} (hz : 2 * uro f ≤ |z|) (hz1 : |z| ≤ 1 / 30) (h1 : Mu z v a e₁ M₁)
    (e10 : 0 ≤ e₁) (n1 : 1 ≤ n) (n2 : n ≤ 10000) (hM : M₁ / n ≤ M) (hs : (M₁ + e₁ / 10 ^ 7) / n ≤ 100)
    (he : e₁ / n + (M₁ + e₁ / 10 ^ 7) / n + 1 / 2 ^ 20 ≤ e) : Mu z (v / i n) (a / n) e M := by
  obtain ⟨r, hr, -, hra, ha⟩ := h1
  have z0 := abs_nonneg z
  have sr := mu_size (f := f) e10 hra ha
  have hn := is_i (f := f) (n := n) (by rw [abs_le]; constructor <;> omega)
  have n0 : (0:ℚ) < n := by exact_mod_cast (by omega : 0 < n)
  refine mu_round (M' := (M₁ + e₁ / 10 ^ 7) / n) (e₀ := e₁ / n) (q' := r / n) hz hz1 hs (fun h => hr.div hn n0.ne' h) ?_ ?_ ?_ he
  · rw [abs_div, abs_of_pos n0]
    have h4 := mul_le_mul_of_nonneg_right hM z0
    have := div_le_div_of_nonneg_right ha n0.le
    rw [mul_comm, mul_div_assoc, mul_comm] at this
    linarith
  · rw [← sub_div, abs_div, abs_of_pos n0]
    have := div_le_div_of_nonneg_right hra n0.le
    rwa [mul_comm, mul_div_assoc, mul_comm] at this
  · rw [abs_div, abs_of_pos n0]
    have := div_le_div_of_nonneg_right sr n0.le
    rwa [mul_comm, mul_div_assoc, mul_comm] at this

theorem Mu.two {v : FV f} {a e₁ M₁ e M : ℚ} (hz : 2 * uro f ≤ |z|) (hz1 : |z| ≤ 1 / 30) (h1 : Mu z v a e₁ M₁)
    (e10 : 0 ≤ e₁) (hM : 2 * M₁ ≤ M) (hs : 2 * (M₁ + e₁ / 10 ^ 7) ≤ 100)
    (he : 2 * e₁ + 2 * (M₁ + e₁ / 10 ^ 7) + 1 / 2 ^ 20 ≤ e) : Mu z (i 2 * v) (2 * a) e M := by
  obtain ⟨r, hr, -, hra, ha⟩ := h1
  have z0 := abs_nonneg z
  have sr := mu_size (f := f) e10 hra ha
  have hn := is_i (f := f) (n := 2) (by norm_num)
  push_cast at hn
  refine mu_round (M' := 2 * (M₁ + e₁ / 10 ^ 7)) (e₀ := 2 * e₁) (q' := 2 * r) hz hz1 hs (fun h => hn.mul hr h) ?_ ?_ ?_ he
  · rw [abs_mul, abs_two]
    have h4 := mul_le_mul_of_nonneg_right hM z0
    linarith
  · rw [← mul_sub, abs_mul, abs_two]; linarith
  · rw [abs_mul, abs_two]; linarith

/-- the regular part of the series -/
theorem tan_tail_mu {v : FV f} (hz : 2 * uro f ≤ |z|) (hz1 : |z| ≤ 1 / 30) (hv : Is v z) (hr : Rep f z) :
    Mu z (v / i 3 + (pow_integral_int v 3 / i 45 + (i 2 * pow_integral_int v 5 / i 945 + pow_integral_int v 7 / i 4725)))
      (z / (3:ℤ) + (z * z * z / (45:ℤ) + (2 * (z * ((z * z) * (z * z))) / (945:ℤ) + (z * (z * z)) * ((z * z) * (z * z)) / (4725:ℤ)))) (7 / 10) (1 / 2) := by
  have p3 : pow_integral_int v 3 = v * v * v := rfl
  have p5 : pow_integral_int v 5 = (i 1 * v) * ((v * v) * (v * v)) := by
    rw [show pow_integral_int v 5 = pow_integral_compute_recur v (i 1) 5 from rfl, pow_integral_compute_recur, if_pos (by norm_num), if_pos (by norm_num), pow_integral_compute_recur, if_pos (by norm_num), if_neg (by norm_num),
      pow_integral_compute_recur, if_neg (by norm_num), if_pos (by norm_num)]
  have p7 : pow_integral_int v 7 = ((i 1 * v) * (v * v)) * ((v * v) * (v * v)) := by
    rw [show pow_integral_int v 7 = pow_integral_compute_recur v (i 1) 7 from rfl, pow_integral_compute_recur, if_pos (by norm_num), if_pos (by norm_num), pow_integral_compute_recur, if_pos (by norm_num), if_pos (by norm_num),
      pow_integral_compute_recur, if_neg (by norm_num), if_pos (by norm_num)]
  have z0 := abs_nonneg z
  have m1 : Mu z v z 0 1 := ⟨z, hv, hr, by simp, by simp⟩
  have m1' : Mu z (i 1 * v) z 0 1 := by
    refine ⟨z, ?_, hr, by simp, by simp⟩
    have h1 := is_i (f := f) (n := 1) (by norm_num)
    have := h1.mul hv (nov (by push_cast; rw [one_mul]; exact hz1.trans (by norm_num)))
    push_cast at this
    rwa [one_mul, hr] at this
  have m2 : Mu z (v * v) (z * z) (334 / 10000) (1 / 30) :=
    m1.mul hz hz1 m1 le_rfl le_rfl (by norm_num) (by norm_num) (by norm_num) (by norm_num) (by norm_num)
  have m3 : Mu z (v * v * v) (z * z * z) (23 / 10000) (1 / 900) :=
    m2.mul hz hz1 m1 (by norm_num) le_rfl (by norm_num) (by norm_num) (by norm_num) (by norm_num) (by norm_num)
  have m3' : Mu z ((i 1 * v) * (v * v)) (z * (z * z)) (23 / 10000) (1 / 900) :=
    m1'.mul hz hz1 m2 le_rfl (by norm_num) (by norm_num) (by norm_num) (by norm_num) (by norm_num) (by norm_num)
  have m4 : Mu z (v * v * (v * v)) (z * z * (z * z)) (12 / 100000) (1 / 27000) :=
    m2.mul hz hz1 m2 (by norm_num) (by norm_num) (by norm_num) (by norm_num) (by norm_num) (by norm_num) (by norm_num)
  have m5 : Mu z (i 1 * v * (v * v * (v * v))) (z * (z * z * (z * z))) (1 / 100000) (1 / 800000) :=
    m1'.mul hz hz1 m4 le_rfl (by norm_num) (by norm_num) (by norm_num) (by norm_num) (by norm_num) (by norm_num)
  have m7 : Mu z (i 1 * v * (v * v) * (v * v * (v * v))) (z * (z * z) * (z * z * (z * z))) (1 / 100000) (1 / 800000) :=
    m3'.mul hz hz1 m4 (by norm_num) (by norm_num) (by norm_num) (by norm_num) (by norm_num) (by norm_num) (by norm_num)
  have d3 := Mu.divi (n := 45) (e := 1 / 10000) (M := 1 / 10000) hz hz1 m3 (by norm_num) (by norm_num) (by norm_num) (by norm_num) (by norm_num) (by norm_num)
  have t5 := Mu.two (e := 1 / 10000) (M := 1 / 400000) hz hz1 m5 (by norm_num) (by norm_num) (by norm_num) (by norm_num)
  have d5 := Mu.divi (n := 945) (e := 1 / 10000) (M := 1 / 10000) hz hz1 t5 (by norm_num) (by norm_num) (by norm_num) (by norm_num) (by norm_num) (by norm_num)
  have d7 := Mu.divi (n := 4725) (e := 1 / 10000) (M := 1 / 10000) hz hz1 m7 (by norm_num) (by norm_num) (by norm_num) (by norm_num) (by norm_num) (by norm_num)
  have d1 := Mu.divi (n := 3) (e := 334 / 1000) (M := 1 / 3) hz hz1 m1 (by norm_num) (by norm_num) (by norm_num) (by norm_num) (by norm_num) (by norm_num)
  rw [p3, p5, p7]
  have s1 := Mu.add (e := 1 / 1000) (M := 1 / 1000) hz hz1 d5 d7 (by norm_num) (by norm_num) (by norm_num) (by norm_num) (by norm_num)
  have s2 := Mu.add (e := 5 / 1000) (M := 2 / 1000) hz hz1 d3 s1 (by norm_num) (by norm_num) (by norm_num) (by norm_num) (by norm_num)
  exact Mu.add hz hz1 d1 s2 (by norm_num) (by norm_num) (by norm_num) (by norm_num) (by norm_num)

end

/-! ## The branch next to the pole -/

theorem uro_ldbl_le (f : Fmt) : uro f.ldbl ≤ uro f := by
  unfold uro; rcases f with ⟨⟨⟩, ⟨⟩⟩ <;> decide +kernel

/-- a `long double` literal converted to the type -/
theorem is_L_near {q : ℚ} (h1 : 1 / 2 ≤ q) (h2 : q ≤ 100) :
    ∃ h, Is (L q : FV f) h ∧ Rep f h ∧ |h - q| ≤ 201 / 100 * uro f * q := by
  have q0 : 0 < q := by linarith
  have mn : ∀ g : Fmt, ∀ y : ℚ, 1 / 4 ≤ y → minNormal g ≤ |y| := by
    intro g y hy
    rw [abs_of_pos (by linarith)]
    exact (minNormal_le' g).trans (le_trans (by norm_num) hy)
  have e1 := rnd_err_rel (mn f.ldbl q (by linarith))
  rw [abs_of_pos q0] at e1
  have hu := uro_pos f
  have hu7 := uro_le7 f
  have hl := uro_ldbl_le f
  have e1' : |rnd f.ldbl q - q| ≤ uro f * q := e1.trans (mul_le_mul_of_nonneg_right hl q0.le)
  have uq : uro f * q ≤ 1 / 10 ^ 7 * q := mul_le_mul_of_nonneg_right hu7 q0.le
  have h3 := abs_le.1 e1'
  set r := rnd f.ldbl q with hr
  have r0 : 1 / 4 ≤ r := by norm_num at uq; linarith
  have r1 : r ≤ 1001 / 1000 * q := by norm_num at uq; linarith
  have e2 := rnd_err_rel (mn f r r0)
  rw [abs_of_pos (show 0 < r by linarith)] at e2
  refine ⟨rnd f r, is_mk (nov (by rw [abs_of_pos (by linarith)]; norm_num; linarith)), rep_rnd _ _, ?_⟩
  have h4 := abs_add_le (rnd f r - r) (r - q)
  rw [sub_add_sub_cancel] at h4
  have h5 := mul_le_mul_of_nonneg_left r1 hu.le
  have h6 : 0 ≤ uro f * q := by positivity
  linarith

theorem half_pi_val : ∃ h, Is (L HALF_PI : FV f) h ∧ Rep f h ∧ 15707 / 10000 ≤ h ∧ h ≤ 15709 / 10000 ∧
    |(h:ℝ) - Real.pi / 2| ≤ 32 / 10 * uro f := by
  obtain ⟨h, ih, rh, e⟩ := is_L_near (f := f) (q := HALF_PI) (by decide +kernel) (by decide +kernel)
  have b0 : (157079 / 100000 : ℚ) ≤ HALF_PI := by decide +kernel
  have b1 : HALF_PI ≤ (157080 / 100000 : ℚ) := by decide +kernel
  have hu := uro_pos f
  have hu7 := uro_le7 f
  have e' : |h - HALF_PI| ≤ 3158 / 1000 * uro f := by
    refine e.trans ?_
    have := mul_le_mul_of_nonneg_left b1 (show 0 ≤ 201 / 100 * uro f by positivity)
    linarith
  have h3 := abs_le.1 e'
  norm_num at hu7
  refine ⟨h, ih, rh, by linarith, by linarith, ?_⟩
  have er := (Rat.cast_le (K := ℝ)).2 e'
  push_cast at er
  have hp := HALF_PI_err
  have h4 := abs_add_le ((h:ℝ) - (HALF_PI : ℚ)) (((HALF_PI : ℚ) : ℝ) - Real.pi / 2)
  rw [sub_add_sub_cancel] at h4
  have u64 := (Rat.cast_le (K := ℝ)).2 (uro_ge' f)
  push_cast at u64 hp
  norm_num only at u64 hp
  linarith

theorem cotP_tail (z : ℝ) (hz : z ≠ 0) :
    -(cotP z / z) = -1 / z + (z / 3 + (z * z * z / 45 + (2 * (z * (z * z * (z * z))) / 945 + z * (z * z) * (z * z * (z * z)) / 4725))) := by
  unfold cotP; field_simp; ring

/-- the Laurent series in the format -/
theorem tan_long_back {v : FV f} {z : ℚ} (hv : Is v z) (hr : Rep f z) (hz : 2 * uro f ≤ |z|) (hz1 : |z| ≤ 1 / 30) :
    ∃ (r : ℚ) (θ : ℝ), Is (tan_series_exp_long v) r ∧ Real.tan θ = r ∧ Real.cos θ ≠ 0 ∧
      |θ - (z + Real.pi / 2)| ≤ uro f ∧ |r| ≤ 101 / 100 * 2 ^ 63 ∧ minNormal f ≤ |r| := by
  have hu := uro_pos f
  have u64 := uro_ge' f
  have hu7 := uro_le7 f
  have za : 0 < |z| := by linarith
  have z0 : z ≠ 0 := abs_pos.1 za
  have z63 : 1 / 2 ^ 63 ≤ |z| := by norm_num only at u64 ⊢; linarith
  have hur : (0:ℝ) < uro f := by exact_mod_cast hu
  have hur7 : (uro f:ℝ) ≤ 1 / 10 ^ 7 := by have := (Rat.cast_le (K := ℝ)).2 hu7; push_cast at this; exact this
  have ur64 : (1:ℝ) / 2 ^ 64 ≤ uro f := by have := (Rat.cast_le (K := ℝ)).2 u64; push_cast at this; exact this
  obtain ⟨s, is, rs, es, sM⟩ := tan_tail_mu hz hz1 hv hr
  have ss := mu_size (f := f) (by norm_num) es sM
  set τ := (z / (3:ℤ) + (z * z * z / (45:ℤ) + (2 * (z * ((z * z) * (z * z))) / (945:ℤ) + (z * (z * z)) * ((z * z) * (z * z)) / (4725:ℤ)))) with hτ
  have s1 : |s| ≤ 1 := ss.trans (by nlinarith)
  have im : Is (i (-1) : FV f) (-1) := by have := is_i (f := f) (n := -1) (by norm_num); push_cast at this; exact this
  have q0 : 30 ≤ |-1 / z| := by rw [abs_div, abs_neg, abs_one, le_div_iff₀ za]; linarith
  have q1 : |-1 / z| ≤ 2 ^ 63 := by
    rw [abs_div, abs_neg, abs_one, div_le_iff₀ za]
    have := mul_le_mul_of_nonneg_left z63 (show (0:ℚ) ≤ 2 ^ 63 by norm_num)
    norm_num at this ⊢; exact this
  have i1 := im.div hv z0 (nov (q1.trans (by norm_num)))
  obtain ⟨δ₁, hδ₁, e1⟩ := exists_rel_rnd (f := f) (q := -1 / z) ((minNormal_le' f).trans (le_trans (by norm_num) q0))
  have r30 : Rep f 16 := by have := rep_pow2_nat (f := f) (n := 4); norm_num at this; exact this
  have iv0 : 16 ≤ |rnd f (-1 / z)| := by rw [abs_rnd]; exact le_rnd_of_rep r30 (by linarith)
  have iv1 : |rnd f (-1 / z)| ≤ 2 ^ 63 := abs_rnd_le_of_rep rep_pow2_nat q1
  have ri : Rep f (rnd f (-1 / z)) := rep_rnd _ _
  set w := rnd f (-1 / z) with hw
  have t1 : |w + s| ≤ 2 ^ 64 := (abs_add_le _ _).trans (by norm_num at iv1 ⊢; linarith)
  have t0 : 8 ≤ |w + s| := by
    have := abs_sub_abs_le_abs_sub w (-s)
    rw [abs_neg, sub_neg_eq_add] at this
    linarith
  have i2 := i1.add is (nov (t1.trans (by norm_num)))
  have h2 := (Rat.cast_le (K := ℝ)).2 (rnd_add_rel (f := f) ri rs)
  push_cast at h2
  obtain ⟨δ₂, hδ₂, e2⟩ := exists_rel hur.le h2
  push_cast at e1
  have zr0 : (z:ℝ) ≠ 0 := by exact_mod_cast z0
  have hz1r : |(z:ℝ)| ≤ 1 / 30 := by have := (Rat.cast_le (K := ℝ)).2 hz1; push_cast at this; exact this
  have zar : 0 < |(z:ℝ)| := abs_pos.2 zr0
  have esr := (Rat.cast_le (K := ℝ)).2 es
  push_cast at esr
  have ct := cotP_tail z zr0
  have eτ : (τ:ℝ) = (z / 3 + (z * z * z / 45 + (2 * (z * (z * z * (z * z))) / 945 + z * (z * z) * (z * z * (z * z)) / 4725))) := by
    rw [hτ]; push_cast; ring
  rw [← eτ] at ct
  have inv0 : (30:ℝ) ≤ 1 / |(z:ℝ)| := by rw [le_div_iff₀ zar]; linarith
  have ai : |(-1:ℝ) / z| = 1 / |(z:ℝ)| := by rw [abs_div, abs_neg, abs_one]
  have τ1 : |(τ:ℝ)| ≤ 1 / 2 * |(z:ℝ)| := by have := (Rat.cast_le (K := ℝ)).2 sM; push_cast at this; exact this
  have zi : |(z:ℝ)| ≤ 1 / 900 * (1 / |(z:ℝ)|) := by linarith
  have A0 : 999 / 1000 * (1 / |(z:ℝ)|) ≤ |-(cotP z / z)| := by
    rw [ct]
    have := abs_sub_abs_le_abs_sub ((-1:ℝ) / z) (-τ)
    rw [abs_neg, sub_neg_eq_add, ai] at this
    linarith
  have hE : |((w:ℝ) + s) - -(cotP z / z)| ≤ 101 / 100 * uro f * |-(cotP z / z)| := by
    rw [ct, e1, show (-1:ℝ) / z * (1 + δ₁) + s - (-1 / z + τ) = -1 / z * δ₁ + (s - τ) by ring]
    refine (abs_add_le _ _).trans ?_
    rw [abs_mul, ai, ← ct]
    have k1 := mul_le_mul_of_nonneg_left hδ₁ (show 0 ≤ 1 / |(z:ℝ)| by positivity)
    have k2 := mul_le_mul_of_nonneg_left zi hur.le
    have k3 := mul_le_mul_of_nonneg_left A0 hur.le
    have k4 : 0 ≤ (uro f:ℝ) * (1 / |(z:ℝ)|) := by positivity
    generalize 1 / |(z:ℝ)| = I at *
    linarith
  obtain ⟨ε', hε', e3⟩ := exists_rel (by positivity) hE
  obtain ⟨ε, hεd⟩ : ∃ ε : ℝ, ε = (1 + ε') * (1 + δ₂) - 1 := ⟨_, rfl⟩
  have hε : |ε| ≤ 202 / 100 * uro f := by
    rw [hεd, show (1 + ε') * (1 + δ₂) - 1 = ε' + δ₂ + ε' * δ₂ by ring]
    have h1 : |ε' * δ₂| ≤ 101 / 100 * uro f * (1 / 10 ^ 7) := by
      rw [abs_mul]; exact mul_le_mul hε' (hδ₂.trans hur7) (abs_nonneg _) (by positivity)
    have h3 := abs_add_le (ε' + δ₂) (ε' * δ₂)
    have h4 := abs_add_le ε' δ₂
    norm_num only at h1
    linarith
  norm_num only at hur7
  obtain ⟨θ, g1, g2, g3⟩ := cot_backward (z := z) (ε := ε) (by linarith) zr0 (by linarith)
  refine ⟨_, θ, i2, ?_, g2, g3.trans ?_, ?_, ?_⟩
  · rw [g1, e2, e3, hεd]; ring
  · have m1 : 101 / 100 * (|ε| + 1 / 10 ^ 18) * |(z:ℝ)| ≤ 101 / 100 * (202 / 100 * uro f + 1 / 10 ^ 18) * (1 / 30) :=
      mul_le_mul (by linarith) hz1r (abs_nonneg _) (by positivity)
    refine m1.trans ?_
    norm_num only at ur64 ⊢
    linarith
  · have k1 := rnd_add_rel (f := f) ri rs
    have k2 : |w + s| ≤ 2 ^ 63 + 1 := (abs_add_le _ _).trans (by linarith)
    have k3 : uro f * |w + s| ≤ 1 / 10 ^ 7 * (2 ^ 63 + 1) := mul_le_mul hu7 k2 (abs_nonneg _) (by norm_num)
    have k4 := abs_add_le (rnd f (w + s) - (w + s)) (w + s)
    rw [sub_add_cancel] at k4
    norm_num at k2 k3 ⊢
    linarith
  · rw [abs_rnd]
    have r8 : Rep f 8 := by have := rep_pow2_nat (f := f) (n := 3); norm_num at this; exact this
    exact (minNormal_le' f).trans (le_trans (by norm_num) (le_rnd_of_rep r8 t0))

theorem arctan_big {r : ℝ} (hr : 0 < r) : |Real.arctan r - Real.pi / 2| ≤ 1 / r := by
  have h := Real.arctan_inv_of_pos hr
  have h1 := abs_arctan_le (1 / r)
  rw [one_div] at h1 ⊢
  rw [abs_of_pos (inv_pos.2 hr)] at h1
  have : Real.arctan r - Real.pi / 2 = -Real.arctan r⁻¹ := by rw [h]; ring
  rw [this, abs_neg]; exact h1

/-- At the stored π/2 the result is the constant 1.633124e16, the tangent of an angle 6e-17 away from π/2: within the
error bound for `float` and `double`, but not for `long double`. -/
noncomputable def poleErr (f : Fmt) (r : ℚ) : ℝ := if f.ty = .ldouble ∧ |r| = 16331240000000000 then 1 / 2 ^ 53 else 0

theorem poleErr_nonneg (f : Fmt) (r : ℚ) : 0 ≤ poleErr f r := by unfold poleErr; split_ifs <;> norm_num

theorem poleErr_le (f : Fmt) (r : ℚ) : poleErr f r ≤ 1 / 2 ^ 53 := by unfold poleErr; split_ifs <;> norm_num

/-- both branches of `tan_series_exp` -/
theorem tan_near_back {v : FV f} {x : ℚ} (hf : f.exact = false) (hv : Is v x) (hr : Rep f x) (hx0 : 1549 / 1000 ≤ x) (hx1 : x ≤ 1601 / 1000) :
    ∃ (r : ℚ) (θ : ℝ), Is (tan_series_exp v) r ∧ Real.tan θ = r ∧ Real.cos θ ≠ 0 ∧ |θ - x| ≤ 15 * wro f * x + poleErr f r ∧
      |r| ≤ 101 / 100 * 2 ^ 63 ∧ minNormal f ≤ |r| := by
  obtain ⟨h, ih, rh, h0, h1, he⟩ := half_pi_val (f := f)
  obtain ⟨hw0, hw1, huw⟩ := wro_cast f
  have hur : (0:ℝ) < uro f := by exact_mod_cast uro_pos f
  have xr : (1549 / 1000 : ℝ) ≤ x := by have := (Rat.cast_le (K := ℝ)).2 hx0; push_cast at this; exact this
  have fin_bd : (5:ℝ) * uro f ≤ 15 * wro f * x := by
    have := mul_le_mul_of_nonneg_left xr (show 0 ≤ 15 * (wro f:ℝ) by positivity)
    linarith
  have dd : |x - h| ≤ 1 / 30 := by rw [abs_le]; constructor <;> linarith
  have rd : Rep f (x - h) := rep_diff_rep hf hr rh (by linarith) (by linarith) (by linarith)
  have iz := hv.sub ih (nov (dd.trans (by norm_num)))
  rw [rd] at iz
  unfold tan_series_exp
  obtain ⟨zz, hzz⟩ := iz
  have mn : minNormal f ≤ 1 / 2 ^ 125 := minNormal_le' f
  rcases eq_or_ne x h with rfl | hne
  · rw [if_pos (by rw [hzz, limMin_gt_fabs, sub_self, abs_zero]; exact FV.minNormal_pos f)]
    obtain ⟨r, ir, r0, r1⟩ := is_d_near (f := f) (q := 1.633124e16) (by norm_num) (by norm_num)
    have rp : (16 * 10 ^ 15 : ℚ) ≤ r := le_trans (by norm_num) r0
    have rq : r ≤ 17 * 10 ^ 15 := r1.trans (by norm_num)
    have rpr : (16 * 10 ^ 15 : ℝ) ≤ r := by have := (Rat.cast_le (K := ℝ)).2 rp; push_cast at this; exact this
    have rr0 : (0:ℝ) < r := lt_of_lt_of_le (by norm_num) rpr
    have ra : |r| = r := abs_of_pos (lt_of_lt_of_le (by norm_num) rp)
    refine ⟨r, Real.arctan r, ir, Real.tan_arctan _, (Real.cos_arctan_pos _).ne', ?_, ?_, ?_⟩
    · have b := arctan_big rr0
      have b2 : 1 / (r:ℝ) ≤ 1 / (16 * 10 ^ 15) := div_le_div_of_nonneg_left (by norm_num) (by norm_num) rpr
      have b4 := abs_sub (Real.arctan r - Real.pi / 2) ((x:ℝ) - Real.pi / 2)
      rw [sub_sub_sub_cancel_right] at b4
      norm_num only at b2
      by_cases hty : f.ty = .ldouble
      · have er : r = 16331240000000000 := by
          obtain ⟨w, hw⟩ := ir
          have : (d 1.633124e16 : FV f) = fin 16331240000000000 false := by
            rcases f with ⟨ty, ex⟩
            simp only at hty hf
            subst hty; subst hf
            decide +kernel
          rw [this] at hw
          injection hw with h1 h2
          exact h1.symm
        have : poleErr f r = 1 / 2 ^ 53 := by
          unfold poleErr; rw [if_pos ⟨hty, by rw [er]; norm_num⟩]
        rw [this]
        norm_num only
        linarith
      · have hu53 : (1:ℚ) / 2 ^ 53 ≤ uro f := by
          unfold uro
          rcases f with ⟨⟨⟩, ⟨⟩⟩ <;> first | exact absurd rfl hty | decide +kernel
        have h53 : (1:ℝ) / 2 ^ 53 ≤ uro f := by have := (Rat.cast_le (K := ℝ)).2 hu53; push_cast at this; exact this
        have := poleErr_nonneg f r
        norm_num only at h53
        linarith
    · rw [ra]; exact rq.trans (by norm_num)
    · rw [ra]; exact mn.trans (le_trans (by norm_num) rp)
  · have hd : 2 * uro f ≤ |x - h| := rep_dist hf hr rh (by linarith) (by linarith) hne
    have hu64 := uro_ge' f
    rw [if_neg (by
      rw [hzz, limMin_gt_fabs, not_lt]
      refine mn.trans (le_trans ?_ hd)
      norm_num only at hu64 ⊢; linarith)]
    obtain ⟨r, θ, g1, g2, g3, g4, g5, g6⟩ := tan_long_back ⟨zz, hzz⟩ rd hd dd
    refine ⟨r, θ, g1, g2, g3, ?_, g5, g6⟩
    push_cast at g4
    have e : θ - x = (θ - ((x:ℝ) - h + Real.pi / 2)) + -(h - Real.pi / 2) := by ring
    rw [e]
    refine (abs_add_le _ _).trans ?_
    have := poleErr_nonneg f r
    rw [abs_neg]; linarith

end Gcem
