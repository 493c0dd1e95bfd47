import Verif.Analysis.SqrtScale
import Mathlib.Data.Nat.Factorization.Basic

/-!
# The Newton iteration of sqrt.hpp on an exact square

If the argument is the square of a representable number and is itself representable, the root has at
most about half the digits of the format, and the iteration ends exactly at it.
-/

namespace Gcem
open FV
variable {f : Fmt}

theorem fexp_normal {t : ℚ} (h : minNormal f ≤ |t|) : fexp f t = ilog2 t - ((f.prec : ℤ) - 1) := by
  have ht : t ≠ 0 := by
    rintro rfl
    have := minNormal_pos f
    simp at h; linarith
  have h1 : f.emin + f.prec - 1 ≤ ilog2 t := (le_ilog2_iff ht).mpr h
  unfold fexp; omega

theorem ilog2_double {t : ℚ} (h0 : 0 < t) : ilog2 (2 * t) = ilog2 t + 1 := by
  obtain ⟨a, b⟩ := ilog2_spec h0.ne'
  rw [abs_of_pos h0] at a b
  apply ilog2_unique
  · rw [abs_of_pos (by linarith), pow2_succ]; linarith
  · rw [abs_of_pos (by linarith), pow2_succ]; linarith

/-- A number closer to the representable `t` than half the distance to its neighbours rounds to it. -/
theorem rnd_eq_of_close {s t : ℚ} (hf : f.exact = false) (ht : Rep f t) (hn : 2 * minNormal f ≤ t)
    (lo : t - pow2 (fexp f t) / 4 < s) (hi : s < t + pow2 (fexp f t) / 2) : rnd f s = t := by
  have hmn := minNormal_pos f
  have h0 : 0 < t := by linarith
  have hP := pow2_pos (fexp f t)
  obtain ⟨N, hN, -⟩ := rep_scaled hf h0.ne' ht
  have hfe : fexp f t = ilog2 t - ((f.prec : ℤ) - 1) :=
    fexp_normal (by rw [abs_of_pos h0]; linarith)
  have hp2 := prec_pos f
  obtain ⟨hl1, hl2⟩ := ilog2_spec h0.ne'
  rw [abs_of_pos h0] at hl1 hl2
  rcases le_or_gt t s with hts | hts
  · have hs0 : 0 < s := by linarith
    obtain ⟨K, -, hK⟩ := pow2_mult (a := ilog2 t + 1) (b := fexp f t) (by omega)
    have hNK : N + 1 ≤ K := by
      have : (N:ℚ) < K := by
        rw [hK, hN] at hl2
        rw [hN] at hP
        have hP' := pow2_pos (fexp f t)
        rw [← hN] at hl2
        rw [hK, hN] at *
        exact lt_of_mul_lt_mul_right (by rw [← hN]; exact hl2) hP'.le
      have : N < K := by exact_mod_cast this
      omega
    have hNK' : (N:ℚ) + 1 ≤ K := by exact_mod_cast hNK
    have hsL : s < pow2 (ilog2 t + 1) := by
      rw [hK]
      nlinarith
    have hls : ilog2 s = ilog2 t := by
      apply ilog2_unique
      · rw [abs_of_pos hs0]; linarith
      · rw [abs_of_pos hs0]; exact hsL
    have hfs : fexp f s = fexp f t := by unfold fexp; rw [hls]
    refine le_antisymm ?_ (le_rnd_of_rep ht hts)
    rw [rnd_def hf hs0.ne', hfs]
    have h1 := (abs_le.1 (rhe_abs_sub (s / pow2 (fexp f t)))).2
    have h2 : s / pow2 (fexp f t) < N + 1 / 2 := by
      rw [div_lt_iff₀ hP]; linarith
    have h3 : rhe (s / pow2 (fexp f t)) < N + 1 := by
      have : (rhe (s / pow2 (fexp f t)) : ℚ) < ((N + 1 : ℤ) : ℚ) := by push_cast; linarith
      exact_mod_cast this
    have h4 : (rhe (s / pow2 (fexp f t)) : ℚ) ≤ N := by
      have : rhe (s / pow2 (fexp f t)) ≤ N := by omega
      exact_mod_cast this
    calc _ ≤ (N:ℚ) * pow2 (fexp f t) := mul_le_mul_of_nonneg_right h4 hP.le
      _ = t := hN.symm
  · have hPt : pow2 (fexp f t) ≤ t := by
      refine le_trans (pow2_le ?_) hl1
      omega
    have hs0 : 0 < s := by linarith
    have hst : t ≤ 2 * s := by linarith
    have hl3 : ilog2 t ≤ ilog2 s + 1 := by
      rw [← ilog2_double hs0]
      exact ilog2_mono h0.ne' (by rw [abs_of_pos h0, abs_of_pos (by linarith)]; exact hst)
    have hfs : fexp f s = ilog2 s - ((f.prec : ℤ) - 1) :=
      fexp_normal (by rw [abs_of_pos hs0]; linarith)
    have hl4 : ilog2 s ≤ ilog2 t :=
      ilog2_mono hs0.ne' (by rw [abs_of_pos h0, abs_of_pos hs0]; exact hts.le)
    refine le_antisymm (rnd_le_of_rep ht hts.le) ?_
    rw [rnd_def hf hs0.ne']
    have h1 := (abs_le.1 (rhe_abs_sub (s / pow2 (fexp f s)))).1
    have hP' := pow2_pos (fexp f s)
    rcases (show fexp f s = fexp f t ∨ fexp f t = fexp f s + 1 by omega) with he | he
    · rw [he] at h1 ⊢
      have h2 : N - 1 / 4 < s / pow2 (fexp f t) := by
        rw [lt_div_iff₀ hP]; linarith
      have h3 : N - 1 < rhe (s / pow2 (fexp f t)) := by
        have : ((N - 1 : ℤ) : ℚ) < (rhe (s / pow2 (fexp f t)) : ℚ) := by push_cast; linarith
        exact_mod_cast this
      have h4 : (N : ℚ) ≤ rhe (s / pow2 (fexp f t)) := by
        have : N ≤ rhe (s / pow2 (fexp f t)) := by omega
        exact_mod_cast this
      calc t = (N:ℚ) * pow2 (fexp f t) := hN
        _ ≤ _ := mul_le_mul_of_nonneg_right h4 hP.le
    · rw [he, pow2_succ] at hN lo
      have h2 : 2 * N - 1 / 2 < s / pow2 (fexp f s) := by
        rw [lt_div_iff₀ hP']; linarith
      have h3 : 2 * N - 1 < rhe (s / pow2 (fexp f s)) := by
        have : ((2 * N - 1 : ℤ) : ℚ) < (rhe (s / pow2 (fexp f s)) : ℚ) := by push_cast; linarith
        exact_mod_cast this
      have h4 : (2 * N : ℚ) ≤ rhe (s / pow2 (fexp f s)) := by
        have : 2 * N ≤ rhe (s / pow2 (fexp f s)) := by omega
        exact_mod_cast this
      calc t = (2 * N:ℚ) * pow2 (fexp f s) := by rw [hN]; ring
        _ ≤ _ := mul_le_mul_of_nonneg_right h4 hP'.le

/-- The root of a representable exact square has a significand `m` with `m * m < 2 ^ prec`. -/
theorem root_digits {r : ℚ} (hf : f.exact = false) (hr0 : 0 < r) (hr : Rep f r) (hq : Rep f (r * r)) :
    ∃ m e : ℤ, 0 < m ∧ m * m < 2 ^ f.prec ∧ r = m * pow2 e := by
  obtain ⟨M, hM, -⟩ := rep_scaled hf hr0.ne' hr
  obtain ⟨N, hN, hNb⟩ := rep_scaled hf (mul_pos hr0 hr0).ne' hq
  set E := fexp f r
  set F := fexp f (r * r)
  have hE := pow2_pos E
  have hF := pow2_pos F
  have hM0 : 0 < M := by
    have : (0:ℚ) < M := by
      by_contra hc; push Not at hc
      nlinarith
    exact_mod_cast this
  obtain ⟨j, m, hm, hjm⟩ := Nat.exists_eq_two_pow_mul_odd (n := M.toNat) (by omega)
  have hMj : M = 2 ^ j * (m : ℤ) := by
    have : (M.toNat : ℤ) = M := Int.toNat_of_nonneg hM0.le
    rw [← this, hjm]; push_cast; ring
  have hm0 : 0 < m := hm.pos
  refine ⟨m, E + j, by exact_mod_cast hm0, ?_, ?_⟩
  swap
  · rw [hM, hMj, pow2_add, pow2_nat]; push_cast; ring
  have hr2 : r * r = (m * m : ℚ) * pow2 (2 * (E + j)) := by
    rw [hM, hMj, two_mul, pow2_add, pow2_add, pow2_nat]; push_cast; ring
  rcases le_or_gt F (2 * (E + j)) with h | h
  · obtain ⟨K, hK0, hK⟩ := pow2_mult h
    have h1 : N = m * m * K := by
      have : (N:ℚ) * pow2 F = (m * m * K : ℚ) * pow2 F := by
        rw [← hN, hr2, hK]; ring
      have := mul_right_cancel₀ hF.ne' this
      exact_mod_cast this
    have h2 : (m * m : ℤ) ≤ N := by
      rw [h1]
      have : (0:ℤ) < m * m := by positivity
      nlinarith
    exact lt_of_le_of_lt (h2.trans (le_abs_self _)) hNb
  · exfalso
    obtain ⟨n, hn⟩ := Int.eq_ofNat_of_zero_le (show 0 ≤ F - 2 * (E + j) - 1 by omega)
    have hFe : F = 2 * (E + j) + (n + 1 : ℕ) := by push_cast; omega
    have hG := pow2_pos (2 * (E + j))
    have h1 : ((m * m : ℕ) : ℤ) = N * 2 ^ (n + 1) := by
      have : (m * m : ℚ) * pow2 (2 * (E + j)) = (N * 2 ^ (n + 1) : ℚ) * pow2 (2 * (E + j)) := by
        rw [← hr2, hN, hFe, pow2_add, pow2_nat]; ring
      have := mul_right_cancel₀ hG.ne' this
      exact_mod_cast this
    have h2 : Odd (m * m) := hm.mul hm
    have h3 : Odd ((m * m : ℕ) : ℤ) := by exact_mod_cast h2
    rw [h1, pow_succ] at h3
    exact absurd h3 (by rw [Int.not_odd_iff_even]; exact ⟨N * 2 ^ n, by ring⟩)

/-- Hypotheses on the root `r` of the argument. -/
structure ExactRoot (f : Fmt) (r : ℚ) : Prop where
  inexact : f.exact = false
  pos : 0 < r
  rep : Rep f r
  repq : Rep f (r * r)
  nrm : 32 * minNormal f ≤ uro f ^ 2 * r

variable {r a : ℚ}

theorem ExactRoot.nrm1 (h : ExactRoot f r) : 32 * minNormal f ≤ uro f * r := by
  have := h.nrm
  have hu := uro_pos f
  have hu1 := uro_lt_rat f
  have := h.pos
  nlinarith [mul_pos hu this]

theorem ExactRoot.nrm0 (h : ExactRoot f r) : 32 * minNormal f ≤ r := by
  have := h.nrm1
  have hu1 := uro_lt_rat f
  have := h.pos
  nlinarith

/-- The root stays clear of the next power of two. -/
theorem ExactRoot.gap (h : ExactRoot f r) : r * (1 + 4 * uro f) < pow2 (ilog2 r + 1) := by
  obtain ⟨m, e, hm, hmm, hr⟩ := root_digits h.inexact h.pos h.rep h.repq
  have hr0 := h.pos
  obtain ⟨h1, h2⟩ := ilog2_spec hr0.ne'
  rw [abs_of_pos hr0] at h1 h2
  have hpe := pow2_pos e
  have hm1 : (1:ℚ) ≤ m := by exact_mod_cast hm
  have hle : e ≤ ilog2 r := by
    rw [le_ilog2_iff hr0.ne', abs_of_pos hr0, hr]
    nlinarith
  obtain ⟨K, -, hK⟩ := pow2_mult (a := ilog2 r + 1) (b := e) (by omega)
  have hmK : (m:ℚ) + 1 ≤ K := by
    have : (m:ℚ) < K := by
      rw [hK] at h2
      rw [hr] at h2
      exact lt_of_mul_lt_mul_right h2 hpe.le
    have : m < K := by exact_mod_cast this
    exact_mod_cast this
  have hu := uro_pos f
  have hu1 := uro_lt_rat f
  have hmu : 4 * (m * uro f) < 1 := by
    have h3 : (m * m : ℚ) < 2 ^ f.prec := by exact_mod_cast hmm
    have h4 : (2:ℚ) ^ f.prec * uro f = 1 := by
      rw [← pow2_nat, uro, ← pow2_add]; simp [pow2_zero]
    have h5 : (m * uro f) * (m * uro f) ≤ uro f := by
      have : (m * m) * uro f * uro f ≤ 2 ^ f.prec * uro f * uro f := by
        have := mul_le_mul_of_nonneg_right (mul_le_mul_of_nonneg_right h3.le hu.le) hu.le
        exact this
      rw [h4] at this
      nlinarith
    by_contra hc; push Not at hc
    nlinarith
  have h6 : r * (1 + 4 * uro f) = (m + 4 * (m * uro f)) * pow2 e := by
    calc _ = (m * pow2 e) * (1 + 4 * uro f) := by rw [← hr]
      _ = _ := by ring
  rw [h6, hK]
  exact mul_lt_mul_of_pos_right (by linarith) hpe

theorem ExactRoot.ulp (h : ExactRoot f r) : uro f * r < pow2 (fexp f r) := by
  have hr0 := h.pos
  obtain ⟨-, h2⟩ := ilog2_spec hr0.ne'
  rw [abs_of_pos hr0] at h2
  have h0 := h.nrm0
  have hmn := minNormal_pos f
  rw [fexp_normal (by rw [abs_of_pos hr0]; linarith)]
  have : pow2 (ilog2 r - ((f.prec:ℤ) - 1)) = uro f * pow2 (ilog2 r + 1) := by
    rw [uro, ← pow2_add]; congr 1; ring
  rw [this]
  exact mul_lt_mul_of_pos_left h2 (uro_pos f)

/-- From any iterate within `3u` of the root the next iterate is the root. -/
theorem ExactRoot.next (h : ExactRoot f r) (ha : |a - r| ≤ 3 * uro f * r) :
    sqrtNext f (r * r) a = r := by
  have hr0 := h.pos
  have hu := uro_pos f
  have hu1 := uro_lt_rat f
  have hmn := minNormal_pos f
  have h0 := h.nrm0
  obtain ⟨ha1, ha2⟩ := abs_le.1 ha
  have hal : r * (1 - 3 * uro f) ≤ a := by linarith
  have hap : 0 < a := by nlinarith
  have hr2 : Rep f (2 * r) := by
    obtain ⟨m, hm, hmb⟩ := rep_scaled h.inexact hr0.ne' h.rep
    have : 2 * r = m * pow2 (fexp f r + 1) := by
      rw [pow2_succ]
      calc 2 * r = 2 * (m * pow2 (fexp f r)) := by rw [← hm]
        _ = _ := by ring
    rw [this]
    exact rep_of_scaled hmb.le (by have := fexp_ge f r; omega)
  have hend : rnd f (a + rnd f (r * r / a)) = 2 * r → sqrtNext f (r * r) a = r := by
    intro hh
    unfold sqrtNext
    rw [hh, show 1 / 2 * (2 * r) = r by ring]
    exact h.rep
  apply hend
  by_cases har : a = r
  · rw [har, mul_div_cancel_right₀ _ hr0.ne', show rnd f r = r from h.rep, ← two_mul]
    exact hr2
  have hw0 : 0 < r * r / a := by positivity
  have hfe : fexp f (2 * r) = fexp f r + 1 := by
    rw [fexp_normal (t := r) (by rw [abs_of_pos hr0]; linarith),
      fexp_normal (t := 2 * r) (by rw [abs_of_pos (by linarith)]; linarith), ilog2_double hr0]
    ring
  have hwr : r * r / a < r * (1 + 4 * uro f) := by
    rw [div_lt_iff₀ hap]
    have h1 : r * (1 + 4 * uro f) * (r * (1 - 3 * uro f)) ≤ r * (1 + 4 * uro f) * a :=
      mul_le_mul_of_nonneg_left hal (by positivity)
    refine lt_of_lt_of_le ?_ h1
    have h2 : r * (1 + 4 * uro f) * (r * (1 - 3 * uro f))
        = r * r + r * r * uro f * (1 - 12 * uro f) := by ring
    rw [h2]
    have : 0 < r * r * uro f * (1 - 12 * uro f) := mul_pos (by positivity) (by linarith)
    linarith
  have hlw : ilog2 (r * r / a) ≤ ilog2 r := by
    have := (ilog2_lt_iff hw0.ne').mpr (by rw [abs_of_pos hw0]; exact hwr.trans h.gap)
    omega
  have hfw : fexp f (r * r / a) ≤ fexp f r := by unfold fexp; omega
  have herr := (rnd_err_ulp (f := f) (r * r / a) hw0.ne').trans
    (div_le_div_of_nonneg_right (pow2_le hfw) (by norm_num))
  obtain ⟨e1, e2⟩ := abs_le.1 herr
  have hg : r * r / a + a - 2 * r = (r - a) ^ 2 / a := by field_simp; ring
  have hg0 : 0 < (r - a) ^ 2 / a := by
    have : 0 < (r - a) ^ 2 := by
      have : r - a ≠ 0 := sub_ne_zero.2 (Ne.symm har)
      positivity
    positivity
  have hulp := h.ulp
  have hg1 : (r - a) ^ 2 / a ≤ 10 * uro f * (uro f * r) := by
    rw [div_le_iff₀ hap]
    have h1 : (r - a) ^ 2 ≤ (3 * uro f * r) ^ 2 := by
      rw [← sq_abs (r - a), abs_sub_comm]
      exact pow_le_pow_left₀ (abs_nonneg _) ha 2
    have h2 : 10 * uro f * (uro f * r) * (r * (1 - 3 * uro f)) ≤ 10 * uro f * (uro f * r) * a :=
      mul_le_mul_of_nonneg_left hal (by positivity)
    have h3 : 0 ≤ (uro f * r) ^ 2 * (1 - 30 * uro f) :=
      mul_nonneg (by positivity) (by linarith)
    nlinarith
  have hg2 : (r - a) ^ 2 / a < pow2 (fexp f r) / 2 := by
    have hP := pow2_pos (fexp f r)
    have : 10 * uro f * (uro f * r) ≤ 10 * uro f * pow2 (fexp f r) :=
      mul_le_mul_of_nonneg_left hulp.le (by linarith)
    nlinarith
  refine rnd_eq_of_close h.inexact hr2 (by linarith) ?_ ?_
  · rw [hfe, pow2_succ]; linarith
  · rw [hfe, pow2_succ]; linarith

/-- If the stopping test fires near the root, the iterate is the root. -/
theorem ExactRoot.stop_diff {x xn : FV f} {q : ℚ} (hx : Is x q) (hxn : Is xn a) (hq : 0 < q)
    (ha : 0 < a) (ha8 : a ≤ 8) (hqa : q / a ≤ 2 ^ 100)
    (hstop : fabs (xn - x / xn) / (i 1 + xn) < limMin) : |a - rnd f (q / a)| < 16 * minNormal f := by
  have hqa0 : 0 < q / a := div_pos hq ha
  have hy : rnd f (q / a) ≤ 2 ^ 100 := rnd_le_of_rep rep_pow2_nat hqa
  have hy0 : 0 ≤ rnd f (q / a) := rnd_nonneg hqa0.le
  set y := rnd f (q / a) with hyd
  have hY : Is (x / xn) y :=
    hx.div hxn ha.ne' (nov (by rw [abs_of_pos hqa0]; norm_num at hqa ⊢; linarith))
  have hD : Is (fabs (xn - x / xn)) |rnd f (a - y)| :=
    (hxn.sub hY (nov (by rw [abs_le]; norm_num at hy ⊢; constructor <;> linarith))).fabs
  have hDb : |rnd f (a - y)| ≤ 2 ^ 101 := abs_rnd_le_of_rep rep_pow2_nat (by
    rw [abs_le]; norm_num at hy ⊢; constructor <;> linarith)
  have hO : Is (i 1 + xn) (rnd f (1 + a)) := by
    rw [i_one]; exact (is_fin 1 false).add hxn (nov (by rw [abs_of_pos (by linarith)]; norm_num; linarith))
  have hOl : 1 ≤ rnd f (1 + a) := by
    refine le_rnd_of_rep ?_ (by linarith)
    have := rep_pow2_nat (f := f) (n := 0); simpa using this
  have hOu : rnd f (1 + a) ≤ 16 := by
    refine rnd_le_of_rep ?_ (by linarith)
    have := rep_pow2_nat (f := f) (n := 4); norm_num at this; exact this
  have hQ : |(|rnd f (a - y)| / rnd f (1 + a))| ≤ 2 ^ 101 := by
    rw [abs_div, abs_abs, abs_of_pos (show 0 < rnd f (1 + a) by linarith),
      div_le_iff₀ (show 0 < rnd f (1 + a) by linarith)]
    norm_num at hDb ⊢
    nlinarith [abs_nonneg (rnd f (a - y))]
  have hO0 : rnd f (1 + a) ≠ 0 := by linarith
  have hlm : Is (limMin : FV f) (minNormal f) := is_fin _ _
  rw [(hD.div hO hO0 (nov (hQ.trans (by norm_num)))).lt_iff hlm] at hstop
  have h1 : |rnd f (a - y)| / rnd f (1 + a) < minNormal f := by
    by_contra hc; push Not at hc
    exact absurd (rnd_pos hc) (not_le.2 hstop)
  rw [div_lt_iff₀ (by linarith)] at h1
  have hmn := minNormal_pos f
  have h2 : |rnd f (a - y)| < 16 * minNormal f := by nlinarith
  have h16 : Rep f (16 * minNormal f) := by
    have : 16 * minNormal f = pow2 (f.emin + f.prec - 1 + 4) := by
      unfold minNormal; rw [pow2_add]; norm_num [pow2_eq]; ring
    rw [this]
    exact rep_pow2 (by rcases f with ⟨⟨⟩, ⟨⟩⟩ <;> decide)
  by_contra hc; push Not at hc
  rcases le_abs.1 hc with hc | hc
  · have := le_rnd_of_rep h16 hc
    exact absurd (this.trans (le_abs_self _)) (not_le.2 h2)
  · have := le_rnd_of_rep h16 hc
    rw [rnd_neg] at this
    exact absurd (this.trans (neg_le_abs _)) (not_le.2 h2)

theorem mult_of_ge {t D : ℚ} (hf : f.exact = false) (ht : Rep f t) (hD : 0 < D) (h : D ≤ t) :
    ∃ k : ℤ, t = k * pow2 (fexp f D) := by
  obtain ⟨m, hm, -⟩ := rep_scaled hf (lt_of_lt_of_le hD h).ne' ht
  obtain ⟨K, -, hK⟩ := pow2_mult (fexp_mono (f := f) (a := D) (b := t) hD.ne'
    (by rw [abs_of_pos hD, abs_of_pos (lt_of_lt_of_le hD h)]; exact h))
  exact ⟨m * K, by rw [hm.trans (by rw [hK])]; push_cast; ring⟩

/-- A fixed point of the quotient near the root is the root. -/
theorem ExactRoot.stop (h : ExactRoot f r) (ha : |a - r| ≤ 3 * uro f * r) (har : Rep f a)
    (hd : |a - rnd f (r * r / a)| < 16 * minNormal f) : a = r := by
  have hr0 := h.pos
  have hu := uro_pos f
  have hu1 := uro_lt_rat f
  have hmn := minNormal_pos f
  have h0 := h.nrm0
  obtain ⟨ha1, ha2⟩ := abs_le.1 ha
  have hur : uro f * r ≤ r / 16777216 := by nlinarith
  have hah : r / 2 ≤ a := by linarith
  have hap : 0 < a := by linarith
  have hw : r / 2 ≤ r * r / a := by
    rw [le_div_iff₀ hap]; nlinarith
  have hrh : Rep f (r / 2) := by
    have := rep_half (f := f) (q := r) h.inexact h.rep (by rw [abs_of_pos hr0]; linarith)
    unfold Rep
    rw [show r / 2 = 1 / 2 * r by ring]; exact this
  have hy : r / 2 ≤ rnd f (r * r / a) := le_rnd_of_rep hrh hw
  obtain ⟨ka, hka⟩ := mult_of_ge h.inexact har (by linarith : 0 < r / 2) hah
  obtain ⟨ky, hky⟩ := mult_of_ge h.inexact (rep_rnd f _) (by linarith : 0 < r / 2) hy
  have hD := pow2_pos (fexp f (r / 2))
  have hDl : 16 * minNormal f ≤ pow2 (fexp f (r / 2)) := by
    obtain ⟨-, h2⟩ := ilog2_spec (q := r / 2) (by positivity)
    rw [abs_of_pos (by linarith)] at h2
    rw [fexp_normal (by rw [abs_of_pos (by linarith)]; linarith)]
    have : pow2 (ilog2 (r / 2) - ((f.prec:ℤ) - 1)) = uro f * pow2 (ilog2 (r / 2) + 1) := by
      rw [uro, ← pow2_add]; congr 1; ring
    rw [this]
    have := mul_le_mul_of_nonneg_left h2.le hu.le
    have := h.nrm1
    linarith
  have hay : a = rnd f (r * r / a) := by
    have h1 : |((ka - ky : ℤ) : ℚ)| < 1 := by
      have h2 : a - rnd f (r * r / a) = ((ka - ky : ℤ) : ℚ) * pow2 (fexp f (r / 2)) := by
        push_cast; rw [sub_mul, ← hka, ← hky]
      rw [h2, abs_mul, abs_of_pos hD] at hd
      by_contra hc; push Not at hc
      nlinarith
    have h2 : |ka - ky| < 1 := by exact_mod_cast h1
    have h3 : ka = ky := by
      have := Int.abs_lt_one_iff.1 h2; omega
    rw [hky, ← h3]; exact hka
  rcases lt_trichotomy a r with hlt | heq | hgt
  · exfalso
    have : r ≤ rnd f (r * r / a) := le_rnd_of_rep h.rep (by
      rw [le_div_iff₀ hap]; nlinarith)
    linarith
  · exact heq
  · exfalso
    have : rnd f (r * r / a) ≤ r := rnd_le_of_rep h.rep (by
      rw [div_le_iff₀ hap]; nlinarith)
    linarith

/-- The iteration ends at the root, from any iterate that leaves one step to spare. -/
theorem ExactRoot.recur {x : FV f} (h : ExactRoot f r) (hA : SqrtArg f (r * r)) (hx : Is x (r * r)) :
    ∀ (n : ℕ) (a : ℚ) (xn : FV f), Is xn a → Rep f a → 0 < a → a ≤ 8 →
      1 - 3 * uro f ≤ (a:ℝ) / √((r * r : ℚ):ℝ) → (a:ℝ) / √((r * r : ℚ):ℝ) ≤ Newton.bnd (uro f) n →
      Is (sqrt_recur x (n + 1) xn) r := by
  have hr0 := h.pos
  have hr0' : (0:ℝ) < r := by exact_mod_cast hr0
  have hsq : √((r * r : ℚ):ℝ) = r := by push_cast; exact Real.sqrt_mul_self hr0'.le
  have hu := uro_pos_real f
  have hu1 := uro_le f
  have hs := hA.s_pos
  have hs2 := hA.s_le
  have near : ∀ a : ℚ, |(a:ℝ) / √((r * r : ℚ):ℝ) - 1| ≤ 3 * uro f → |a - r| ≤ 3 * uro f * r := by
    intro a ha
    rw [hsq] at ha
    have e : (a:ℝ) / r - 1 = (a - r) / r := by field_simp
    rw [e, abs_div, abs_of_pos hr0', div_le_iff₀ hr0'] at ha
    exact_mod_cast ha
  intro n
  induction n with
  | zero =>
    intro a xn hxn har ha ha8 hlo hhi
    change _ ≤ 1 + 3 * (uro f : ℝ) at hhi
    have hn := near a (by rw [abs_le]; constructor <;> linarith)
    have hqa : r * r / a ≤ 2 ^ 100 := by
      have h1 : ((r * r : ℚ):ℝ) / a ≤ 4 := by
        have ha' : (0:ℝ) < a := by exact_mod_cast ha
        rw [div_le_iff₀ ha']
        rw [le_div_iff₀ hs] at hlo
        have := hA.sq
        nlinarith
      have h2 : r * r / a ≤ 4 := by exact_mod_cast h1
      norm_num; linarith
    rw [sqrt_recur]
    split_ifs with hstop
    · rw [← h.stop hn har (ExactRoot.stop_diff hx hxn hA.pos ha ha8 hqa hstop)]; exact hxn
    · have hnx := sqrt_next_is hA hx hxn ha ha8 hqa
      rw [h.next hn] at hnx
      change Is (sqrt_recur x 0 _) r
      rw [sqrt_recur]
      simpa using hnx
  | succ n ih =>
    intro a xn hxn har ha ha8 hlo hhi
    have ha' : (0:ℝ) < a := by exact_mod_cast ha
    have hqa : r * r / a ≤ 2 ^ 100 := by
      have h1 : ((r * r : ℚ):ℝ) / a ≤ 4 := by
        rw [div_le_iff₀ ha']
        rw [le_div_iff₀ hs] at hlo
        have := hA.sq
        nlinarith
      have h2 : r * r / a ≤ 4 := by exact_mod_cast h1
      norm_num; linarith
    rw [sqrt_recur]
    split_ifs with hstop
    · rw [← h.stop (near a (sqrt_stop hA hx hxn ha ha8 hqa hstop)) har
        (ExactRoot.stop_diff hx hxn hA.pos ha ha8 hqa hstop)]
      exact hxn
    · obtain ⟨e, δ, he, hδ, hst⟩ := sqrt_next_step hA ha
      have htp : 0 < (a:ℝ) / √((r * r : ℚ):ℝ) := by positivity
      have hl := Newton.step_lo hu hu1 htp he hδ
      have hf := Newton.step_far hu hu1 hlo he hδ
      have hb := Newton.bnd_step n hu (uro_ge f) hu1 hlo hhi he hδ
      rw [← hst] at hl hf hb
      have hp : (0:ℝ) < sqrtNext f (r * r) a := by
        rw [le_div_iff₀ hs] at hl; nlinarith
      refine ih (sqrtNext f (r * r) a) _ (sqrt_next_is hA hx hxn ha ha8 hqa) (rep_rnd f _)
        (by exact_mod_cast hp) ?_ hl hb
      have : (sqrtNext f (r * r) a : ℝ) ≤ 8 := by
        have ha8' : (a:ℝ) ≤ 8 := by exact_mod_cast ha8
        rw [div_le_iff₀ hs] at hf
        have h3 : (0.5001 * ((a:ℝ) / √((r * r : ℚ):ℝ)) + 0.5001) * √((r * r : ℚ):ℝ)
            = 0.5001 * a + 0.5001 * √((r * r : ℚ):ℝ) := by
          field_simp
        rw [h3] at hf
        linarith
      exact_mod_cast this

/-- The whole iteration on an exact square. -/
theorem ExactRoot.recur_spec {x : FV f} (h : ExactRoot f r) (hA : SqrtArg f (r * r)) (hx : Is x (r * r))
    (hlo : (1:ℚ) / 2 ^ 89 ≤ r) : Is (sqrt_recur x 100 (x / i 2)) r := by
  have hr0 := h.pos
  have hr0' : (0:ℝ) < r := by exact_mod_cast hr0
  have hsq : √((r * r : ℚ):ℝ) = r := by push_cast; exact Real.sqrt_mul_self hr0'.le
  have hu := uro_pos_real f
  have hu1 := uro_le f
  have hs := hA.s_pos
  have hmn := minNormal_pos f
  have hq := hA.pos
  have hq4 := hA.le4
  set q := r * r with hqd
  set a := rnd f (q / 2) with had
  have ha2 : a ≤ 2 := by
    refine rnd_le_of_rep ?_ (by linarith)
    have := rep_pow2_nat (f := f) (n := 1); norm_num at this; exact this
  have hqa : q / 4 ≤ a := by
    have herr := rnd_err_all (f := f) (q / 2)
    rw [abs_of_pos (by linarith : 0 < q / 2)] at herr
    have hpe : pow2 f.emin = 2 * (uro f * minNormal f) := by
      unfold uro minNormal
      rw [← pow2_add, ← pow2_succ]; congr 1; ring
    have hu' := uro_pos f
    have hu1' := uro_lt_rat f
    have hge := hA.ge
    have := (abs_le.1 herr).1
    rw [hpe] at this
    nlinarith
  have ha0 : 0 < a := by linarith
  have ha' : (0:ℝ) < a := by exact_mod_cast ha0
  have hxn : Is (x / i 2) a := hx.div (by rw [i_two]; exact is_fin _ _) (by norm_num)
    (nov (by rw [abs_of_pos (by linarith)]; norm_num; linarith))
  have hqa' : q / a ≤ 4 := by rw [div_le_iff₀ ha0]; linarith
  have hqa2 : q / a ≤ 2 ^ 100 := by norm_num; linarith
  rw [sqrt_recur]
  split_ifs with hstop
  · have hn := sqrt_stop hA hx hxn ha0 (by linarith) hqa2 hstop
    rw [hsq] at hn
    have e : (a:ℝ) / r - 1 = (a - r) / r := by field_simp
    rw [e, abs_div, abs_of_pos hr0', div_le_iff₀ hr0'] at hn
    have hn' : |a - r| ≤ 3 * uro f * r := by exact_mod_cast hn
    rw [← h.stop hn' (rep_rnd f _) (ExactRoot.stop_diff hx hxn hA.pos ha0 (by linarith) hqa2 hstop)]
    exact hxn
  · obtain ⟨e, δ, he, hδ, hst⟩ := sqrt_next_step hA ha0
    have htp : 0 < (a:ℝ) / √(q:ℝ) := by positivity
    have hl := Newton.step_lo hu hu1 htp he hδ
    rw [← hst] at hl
    have hb : sqrtNext f q a ≤ 3 := by
      have r4 : Rep f 4 := by have := rep_pow2_nat (f := f) (n := 2); norm_num at this; exact this
      have r6 : Rep f 6 := rep_nat_small (n := 6) (by decide)
      have r3 : Rep f 3 := rep_nat_small (n := 3) (by decide)
      have h1 := rnd_le_of_rep r4 hqa'
      have h2 := rnd_le_of_rep r6 (show a + rnd f (q / a) ≤ 6 by linarith)
      exact rnd_le_of_rep r3 (by linarith)
    have hp : (0:ℝ) < sqrtNext f q a := by
      rw [le_div_iff₀ hs] at hl; nlinarith
    refine h.recur hA hx 98 _ _ (sqrt_next_is hA hx hxn ha0 (by linarith) hqa2) (rep_rnd f _)
      (by exact_mod_cast hp) (by linarith) hl ?_
    have hb98 : (2:ℝ) ^ 90 * 2.3 ≤ Newton.bnd (uro f) 98 := by
      change _ ≤ 1.0005 + 1.2 * (10000 / 5001 : ℝ) ^ 91
      norm_num
    refine le_trans ?_ hb98
    rw [hsq, div_le_iff₀ hr0']
    have hb' : (sqrtNext f q a : ℝ) ≤ 3 := by exact_mod_cast hb
    have hlo' : (1:ℝ) / 2 ^ 89 ≤ r := by
      have := (Rat.cast_le (K := ℝ)).2 hlo
      push_cast at this; exact this
    rw [div_le_iff₀ (by positivity)] at hlo'
    norm_num at hlo' ⊢
    linarith

end Gcem
