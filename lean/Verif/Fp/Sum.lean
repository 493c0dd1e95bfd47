import Verif.Fp.Calc

/-!
# Sums of representable numbers

Every representable number is a multiple of the least subnormal, so a sum of two of them never underflows.
-/

namespace Gcem
open FV
variable {f : Fmt}

theorem rep_mult_emin (hf : f.exact = false) {q : ℚ} (h : Rep f q) : ∃ k : ℤ, q = k * pow2 f.emin := by
  by_cases hq : q = 0
  · exact ⟨0, by simp [hq]⟩
  obtain ⟨m, hm, -⟩ := rep_scaled hf hq h
  obtain ⟨k, -, hk⟩ := pow2_mult (a := fexp f q) (b := f.emin) (fexp_ge f q)
  exact ⟨m * k, by rw [hm, hk]; push_cast; ring⟩

theorem rep_of_small_mult {q : ℚ} {k : ℤ} (hk : q = k * pow2 f.emin) (h : |q| < minNormal f) : Rep f q := by
  rw [hk]
  apply rep_of_scaled _ le_rfl
  have hp := pow2_pos f.emin
  have h1 : minNormal f = pow2 f.emin * pow2 (f.prec - 1) := by
    rw [← pow2_add]; unfold minNormal; congr 1; omega
  rw [hk, abs_mul, abs_of_pos hp, h1, mul_comm] at h
  have h2 : |(k:ℚ)| < pow2 (f.prec - 1) := lt_of_mul_lt_mul_left h hp.le
  have h3 : pow2 ((f.prec : ℤ) - 1) ≤ pow2 f.prec := pow2_le (by omega)
  have h4 : |(k:ℚ)| ≤ ((2 ^ f.prec : ℤ) : ℚ) := by
    push_cast
    rw [← pow2_nat]; linarith
  exact_mod_cast h4

theorem rep_add_small (hf : f.exact = false) {a b : ℚ} (ha : Rep f a) (hb : Rep f b) (h : |a + b| < minNormal f) :
    Rep f (a + b) := by
  obtain ⟨k, hk⟩ := rep_mult_emin hf ha
  obtain ⟨l, hl⟩ := rep_mult_emin hf hb
  exact rep_of_small_mult (k := k + l) (by rw [hk, hl]; push_cast; ring) h

theorem rnd_add_rel {a b : ℚ} (ha : Rep f a) (hb : Rep f b) : |rnd f (a + b) - (a + b)| ≤ uro f * |a + b| := by
  have hu := uro_pos f
  cases hf : f.exact
  · rcases lt_or_ge |a + b| (minNormal f) with h | h
    · rw [show rnd f (a + b) = a + b from rep_add_small hf ha hb h, sub_self, abs_zero]; positivity
    · exact rnd_err_rel h
  · rw [rnd_exact hf, sub_self, abs_zero]; positivity

theorem rnd_sub_rel {a b : ℚ} (ha : Rep f a) (hb : Rep f b) : |rnd f (a - b) - (a - b)| ≤ uro f * |a - b| := by
  rw [sub_eq_add_neg a b]; exact rnd_add_rel ha hb.neg

theorem uro_lt_half (f : Fmt) : uro f ≤ 1 / 16777216 := by
  have := uro_le f
  have h : ((uro f : ℚ) : ℝ) ≤ ((1 / 16777216 : ℚ) : ℝ) := by push_cast; exact this
  exact_mod_cast h

theorem rnd_add_ne_zero {a b : ℚ} (ha : Rep f a) (hb : Rep f b) (h : a + b ≠ 0) : rnd f (a + b) ≠ 0 := by
  intro h0
  have h1 := rnd_add_rel ha hb
  rw [h0, zero_sub, abs_neg] at h1
  have h2 := uro_lt_half f
  have h3 := abs_pos.2 h
  nlinarith

theorem rnd_add_pos {a b : ℚ} (ha : Rep f a) (hb : Rep f b) (h : 0 < a + b) : 0 < rnd f (a + b) :=
  lt_of_le_of_ne (rnd_nonneg h.le) (rnd_add_ne_zero ha hb h.ne').symm

theorem rnd_add_neg {a b : ℚ} (ha : Rep f a) (hb : Rep f b) (h : a + b < 0) : rnd f (a + b) < 0 :=
  lt_of_le_of_ne (rnd_nonpos h.le) (rnd_add_ne_zero ha hb h.ne)

/-- A value below half the least subnormal rounds to zero. -/
theorem rnd_tiny (hf : f.exact = false) {q : ℚ} (h : |q| < pow2 f.emin / 2) : rnd f q = 0 := by
  have hp := pow2_pos f.emin
  by_cases hq : q = 0
  · rw [hq, rnd_zero]
  obtain ⟨k, hk⟩ := rep_mult_emin hf (rep_rnd f q)
  have h1 : ilog2 q < f.emin := (ilog2_lt_iff hq).mpr (by linarith)
  have h2 : fexp f q = f.emin := by unfold fexp; have := prec_pos f; omega
  have h3 := rnd_err_ulp (f := f) q hq
  rw [h2, hk] at h3
  have h4 : |(k:ℚ)| * pow2 f.emin < pow2 f.emin := by
    calc |(k:ℚ)| * pow2 f.emin = |(k * pow2 f.emin - q) + q| := by
          rw [sub_add_cancel, abs_mul, abs_of_pos hp]
      _ ≤ |k * pow2 f.emin - q| + |q| := abs_add_le _ _
      _ < pow2 f.emin := by linarith
  have h5 : |(k:ℚ)| < 1 := by
    by_contra hc
    push Not at hc
    nlinarith
  have h6 : |k| < 1 := by exact_mod_cast h5
  rw [hk, Int.abs_lt_one_iff.1 h6]; simp

/-- Signs of computed results. -/
theorem mk_lt_zero {q : ℚ} {zs : Bool} (h : rnd f q < 0) : mk f q zs < fin 0 false := by
  unfold mk
  have hq : q < 0 := by
    by_contra hc
    exact absurd (rnd_nonneg (f := f) (not_lt.1 hc)) (not_le.2 h)
  dsimp only
  split
  · simp [hq]
  · rw [fin_lt]; exact h

theorem mk_pos {q : ℚ} {zs : Bool} (h : 0 < rnd f q) : (fin 0 false : FV f) < mk f q zs := by
  unfold mk
  have hq : ¬ q < 0 := by
    intro hc
    exact absurd (rnd_nonpos (f := f) hc.le) (not_le.2 h)
  dsimp only
  split
  · simp [hq]
  · rw [fin_lt]; exact h

end Gcem
