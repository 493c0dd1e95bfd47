import Verif.Fp.Rel
import Verif.Model.Trig
import Verif.Analysis.AtanReal
import Verif.Analysis.LogCf

/-!
# Rounding error of the continued fraction of the arctangent
-/

namespace Gcem
open FV
variable {f : Fmt}

theorem atan_step_rl {s T : ℚ} {D : ℕ} {xx v : FV f} (hD : 1 ≤ D) (hD' : D ≤ 60)
    (hx : Rl xx s 1) (hs0 : 1 / 2 ^ 80 ≤ s) (hs : s ≤ 7)
    (hv : Rl v T (101 / 100 * (1 + 4 / 3 * s))) (hT : 2 * (D:ℚ) + 1 ≤ T) (hT' : T ≤ 500) :
    Rl (atan_cf_step xx D v) (2 * D - 1 + sqC D * s / T) (101 / 100 * (1 + 4 / 3 * s)) := by
  have d1 : (1:ℚ) ≤ D := by exact_mod_cast hD
  have d2 : (D:ℚ) ≤ 60 := by exact_mod_cast hD'
  have i1 : Is (i (2 * (D : ℤ) - 1) : FV f) (2 * (D : ℚ) - 1) := by
    have := is_i (f := f) (n := 2 * (D : ℤ) - 1) (by rw [abs_le]; constructor <;> omega)
    push_cast at this; exact this
  have i2 : Is (i ((D : ℤ) * D) : FV f) (sqC D) := by
    have := is_i (f := f) (n := (D : ℤ) * D) (by rw [abs_le]; constructor <;> nlinarith)
    push_cast at this
    rw [show (sqC D : ℚ) = D * D by simp [sqC]; ring]; exact this
  have c1 : (1:ℚ) ≤ sqC D := by simp only [sqC]; nlinarith
  have c2 : (sqC D : ℚ) ≤ 3600 := by simp only [sqC]; nlinarith
  have c3 : (sqC D : ℚ) ≤ (2 * D - 1) * (2 * D + 1) / 3 := by simp only [sqC]; nlinarith
  have sp : 0 < s := lt_of_lt_of_le (by norm_num) hs0
  have Tp : 0 < T := by linarith
  have m1 : s ≤ sqC D * s := le_mul_of_one_le_left sp.le c1
  have m2 : sqC D * s ≤ 3600 * 7 := mul_le_mul c2 hs sp.le (by norm_num)
  have s1 : Rl (i ((D : ℤ) * D) * xx : FV f) (sqC D * s) 2 :=
    (i2.rl (by linarith)).mul hx (le_trans (by norm_num at hs0 ⊢; linarith) m1) (m2.trans (by norm_num))
      (by norm_num) (by norm_num)
  have q1 : 1 / 2 ^ 120 ≤ sqC D * s / T := by
    rw [le_div_iff₀ Tp]
    have : (1 / 2 ^ 120 : ℚ) * T ≤ 1 / 2 ^ 120 * 500 := mul_le_mul_of_nonneg_left hT' (by norm_num)
    refine this.trans (le_trans ?_ m1)
    norm_num at hs0 ⊢; linarith
  have q2 : sqC D * s / T ≤ (2 * D - 1) * s / 3 := by
    rw [div_le_iff₀ Tp]
    have a : (2 * (D:ℚ) - 1) * s / 3 * (2 * D + 1) ≤ (2 * D - 1) * s / 3 * T :=
      mul_le_mul_of_nonneg_left hT (div_nonneg (mul_nonneg (by linarith) sp.le) (by norm_num))
    have b : (sqC D : ℚ) * s ≤ (2 * D - 1) * (2 * D + 1) / 3 * s := mul_le_mul_of_nonneg_right c3 sp.le
    linarith
  have q3 : (2 * (D:ℚ) - 1) * s / 3 ≤ 1000 := by nlinarith
  have s2 : Rl (i ((D : ℤ) * D) * xx / v : FV f) (sqC D * s / T) (101 / 100 * (1 + 4 / 3 * s) + 30001 / 10000) := by
    refine s1.div hv q1 ((q2.trans q3).trans (by norm_num)) ?_ (by linarith)
    nlinarith
  refine (i1.rl (by linarith)).add s2 (C := 101 / 100 * (1 + 4 / 3 * s) - 1) ?_ ?_ ?_ (by linarith) (by linarith)
  · have : (1 / 2 ^ 120 : ℚ) ≤ 1 := by norm_num
    have := div_nonneg (mul_nonneg (by linarith : (0:ℚ) ≤ sqC D) sp.le) Tp.le
    linarith
  · have : (1200 : ℚ) ≤ 2 ^ 120 := by norm_num
    linarith
  · have k : (101 / 100 * (1 + 4 / 3 * s) + 30001 / 10000 - (101 / 100 * (1 + 4 / 3 * s) - 1)) * (sqC D * s / T)
        ≤ (40001 / 10000) * ((2 * D - 1) * s / 3) := by
      have : 101 / 100 * (1 + 4 / 3 * s) + 30001 / 10000 - (101 / 100 * (1 + 4 / 3 * s) - 1) = 40001 / 10000 := by ring
      rw [this]
      exact mul_le_mul_of_nonneg_left q2 (by norm_num)
    have k2 : (40001 / 10000) * ((2 * (D:ℚ) - 1) * s / 3) ≤ (101 / 100 * (1 + 4 / 3 * s) - 1) * (2 * D - 1) := by
      have : (40001 / 10000) * (s / 3) ≤ 101 / 100 * (1 + 4 / 3 * s) - 1 := by linarith
      have := mul_le_mul_of_nonneg_right this (show (0:ℚ) ≤ 2 * D - 1 by linarith)
      linarith
    linarith

theorem atan_cf_rl {s : ℚ} {xx : FV f} (hx : Rl xx s 1) (hs0 : 1 / 2 ^ 80 ≤ s) (hs : s ≤ 7) (m : ℕ) (hm : m ≤ 60) :
    Rl (atan_cf_recur xx 1 (m + 1)) (cfT sqC (-s) m 1) (101 / 100 * (1 + 4 / 3 * s)) := by
  have sp : 0 ≤ s := le_trans (by norm_num) hs0
  unfold atan_cf_recur
  have := whileDown_inv (atan_cf_step xx) 0
    (fun d v => d ≤ m ∧ Rl v (cfT sqC (-s) (m - d) (d + 1)) (101 / 100 * (1 + 4 / 3 * s))) ?_ m
    (i (2 * ((m + 1 : ℕ) : ℤ) - 1)) (by omega) ⟨le_rfl, ?_⟩
  · have h := this.2
    simpa using h
  · rintro d v - ⟨hd, hv⟩
    refine ⟨by omega, ?_⟩
    have e : m - d = (m - (d + 1)) + 1 := by omega
    have hT := atanT_ge s sp (m - (d + 1)) (d + 1 + 1) (by omega)
    have hT' := atanT_le s sp (m - (d + 1)) (d + 1 + 1) (by omega)
    rw [e, cfT]
    generalize cfT sqC (-s) (m - (d + 1)) (d + 1 + 1) = T at *
    have hd2 : ((d:ℚ) + 1) ≤ 60 := by exact_mod_cast hd.trans hm
    have hd0 : (0:ℚ) ≤ d := Nat.cast_nonneg d
    have h := atan_step_rl (D := d + 1) (by omega) (by omega) hx hs0 hs hv (by push_cast at hT ⊢; linarith)
      (by push_cast at hT'; refine hT'.trans ?_; nlinarith)
    rw [mul_neg, neg_div, sub_neg_eq_add]
    exact h
  · have : Is (i (2 * ((m + 1 : ℕ) : ℤ) - 1) : FV f) (2 * ((m:ℚ) + 1) - 1) := by
      have := is_i (f := f) (n := 2 * ((m + 1 : ℕ) : ℤ) - 1) (by rw [abs_le]; constructor <;> omega)
      push_cast at this ⊢; exact this
    have h := (this.rl (by have : (0:ℚ) ≤ m := Nat.cast_nonneg m
                           linarith)).mono (show (0:ℚ) ≤ 101 / 100 * (1 + 4 / 3 * s) by positivity) (by linarith)
    have e : cfT (sqC : ℕ → ℚ) (-s) (m - m) (m + 1) = 2 * ((m:ℚ) + 1) - 1 := by simp [cfT]
    rw [e]; exact h

/-! ## Tiny arguments: the loop ends with exactly one -/

theorem rep_above_one {r : ℚ} (hf : f.exact = false) (hr : Rep f r) (h1 : 1 < r) (h2 : r < 2) : 1 + 2 * uro f ≤ r := by
  have hq : r ≠ 0 := by linarith
  obtain ⟨m, hm, -⟩ := rep_scaled hf hq hr
  have hl : 0 ≤ ilog2 r := by
    rw [le_ilog2_iff hq, abs_of_pos (by linarith)]
    have : pow2 0 = 1 := by norm_num [pow2_eq]
    linarith
  have he : 1 - (f.prec : ℤ) ≤ fexp f r := by unfold fexp; omega
  obtain ⟨k, -, hk⟩ := pow2_mult he
  have hp0 : 1 ≤ f.prec := by rcases f with ⟨⟨⟩, ⟨⟩⟩ <;> decide
  have hp : pow2 (1 - f.prec) * 2 ^ (f.prec - 1) = 1 := by
    rw [← pow2_nat, ← pow2_add]
    have : (1 - (f.prec : ℤ)) + ((f.prec - 1 : ℕ) : ℤ) = 0 := by omega
    rw [this]; norm_num [pow2_eq]
  have hpos := pow2_pos (1 - f.prec)
  have e : r - 1 = ((m * k - 2 ^ (f.prec - 1) : ℤ) : ℚ) * pow2 (1 - f.prec) := by
    push_cast
    rw [sub_mul, mul_assoc, ← hk, ← hm, mul_comm ((2:ℚ) ^ (f.prec - 1)), hp]
  have hu : pow2 (1 - f.prec) = 2 * uro f := by
    unfold uro; rw [sub_eq_add_neg, pow2_add]; norm_num [pow2_eq]
  rw [hu] at e hpos
  have hpos' : (0:ℚ) < ((m * k - 2 ^ (f.prec - 1) : ℤ) : ℚ) := by
    by_contra hc
    push Not at hc
    have := mul_nonpos_of_nonpos_of_nonneg hc hpos.le
    linarith
  have : (1:ℚ) ≤ ((m * k - 2 ^ (f.prec - 1) : ℤ) : ℚ) := by exact_mod_cast (by exact_mod_cast hpos' : (0:ℤ) < _)
  nlinarith

theorem uro_ge' (f : Fmt) : 1 / 2 ^ 64 ≤ uro f := by
  unfold uro; rcases f with ⟨⟨⟩, ⟨⟩⟩ <;> decide +kernel

theorem rnd_one_add {q : ℚ} (hf : f.exact = false) (h0 : 0 ≤ q) (h1 : q ≤ 1 / 2 ^ 66) : rnd f (1 + q) = 1 := by
  have rone : Rep f 1 := by have := rep_pow2_nat (f := f) (n := 0); simpa using this
  have hge : 1 ≤ rnd f (1 + q) := by
    have := rnd_mono (f := f) (show (1:ℚ) ≤ 1 + q by linarith)
    rwa [rone] at this
  rcases hge.eq_or_lt with h | h
  · exact h.symm
  exfalso
  have hu := uro_ge' f
  have hu1 := uro_lt_half f
  have hm : minNormal f ≤ |1 + q| := by
    rw [abs_of_nonneg (by linarith)]
    have : (1 / 2 ^ 125 : ℚ) ≤ 1 := by norm_num
    linarith [minNormal_le' f]
  have he := rnd_err_rel hm
  rw [abs_of_nonneg (show 0 ≤ 1 + q by linarith)] at he
  have hle := (abs_le.1 he).2
  have b : (1 / 2 ^ 66 : ℚ) = 1 / 4 * (1 / 2 ^ 64) := by norm_num
  have hlt : rnd f (1 + q) < 1 + 2 * uro f := by nlinarith
  have hlt2 : rnd f (1 + q) < 2 := by linarith
  have := rep_above_one hf (rep_rnd f _) h hlt2
  linarith

theorem atan_cf_tiny {s : ℚ} {xx : FV f} (hf : f.exact = false) (hx : Is xx s) (hs0 : 0 ≤ s) (hs : s ≤ 1 / 2 ^ 79)
    (m : ℕ) (hm : m ≤ 60) (hm1 : 1 ≤ m) : Is (atan_cf_recur xx 1 (m + 1)) 1 := by
  have key : ∀ (D : ℕ) (v : FV f) (t : ℚ), D ≤ 60 → 1 ≤ D → Is v t → 1 ≤ t →
      ∃ q, Is (atan_cf_step xx D v) (rnd f (2 * D - 1 + q)) ∧ 0 ≤ q ∧ q ≤ sqC D * (1 / 2 ^ 77) := by
    intro D v t hD hD1 hv ht
    have d1 : (1:ℚ) ≤ D := by exact_mod_cast hD1
    have d2 : (D:ℚ) ≤ 60 := by exact_mod_cast hD
    have i1 : Is (i (2 * (D : ℤ) - 1) : FV f) (2 * (D : ℚ) - 1) := by
      have := is_i (f := f) (n := 2 * (D : ℤ) - 1) (by rw [abs_le]; constructor <;> omega)
      push_cast at this; exact this
    have i2 : Is (i ((D : ℤ) * D) : FV f) (sqC D) := by
      have := is_i (f := f) (n := (D : ℤ) * D) (by rw [abs_le]; constructor <;> nlinarith)
      push_cast at this
      rw [show (sqC D : ℚ) = D * D by simp [sqC]; ring]; exact this
    have c1 : (1:ℚ) ≤ sqC D := by simp only [sqC]; nlinarith
    have c2 : (sqC D : ℚ) ≤ 3600 := by simp only [sqC]; nlinarith
    have up : ∀ y b : ℚ, 0 ≤ y → y ≤ b → 1 / 2 ^ 80 ≤ b → 0 ≤ rnd f y ∧ rnd f y ≤ 3 / 2 * b := by
      intro y b y0 yb hb
      refine ⟨rnd_nonneg y0, (rnd_mono yb).trans ?_⟩
      have hm : minNormal f ≤ |b| := by
        rw [abs_of_nonneg (by linarith)]
        have : (1 / 2 ^ 125 : ℚ) ≤ 1 / 2 ^ 80 := by norm_num
        linarith [minNormal_le' f]
      have he := (abs_le.1 (rnd_err_rel hm)).2
      rw [abs_of_nonneg (show 0 ≤ b by linarith)] at he
      have hu1 := uro_lt_half f
      have : uro f * b ≤ 1 / 2 * b := mul_le_mul_of_nonneg_right (by linarith) (by linarith)
      linarith
    have m0 : 0 ≤ sqC D * s := mul_nonneg (by linarith) hs0
    have m1 : sqC D * s ≤ sqC D * (1 / 2 ^ 79) := mul_le_mul_of_nonneg_left hs (by linarith)
    have b1 : (1 / 2 ^ 80 : ℚ) ≤ sqC D * (1 / 2 ^ 79) :=
      le_trans (by norm_num) (le_mul_of_one_le_left (by norm_num : (0:ℚ) ≤ 1 / 2 ^ 79) c1)
    have b2 : (sqC D : ℚ) * (1 / 2 ^ 77) ≤ 1 :=
      (mul_le_mul_of_nonneg_right c2 (by norm_num)).trans (by norm_num)
    obtain ⟨p0, p1⟩ := up _ _ m0 m1 b1
    have o1 : overflows f (rnd f (sqC D * s)) = false := nov (by
      rw [abs_of_nonneg m0]
      have : (1:ℚ) ≤ 2 ^ 127 := by norm_num
      norm_num at m1 b2 ⊢; linarith)
    have j1 := i2.mul hx o1
    generalize rnd f (sqC D * s) = P at *
    have q0 : 0 ≤ P / t := div_nonneg p0 (by linarith)
    have q1 : P / t ≤ 3 / 2 * (sqC D * (1 / 2 ^ 79)) := (div_le_self p0 ht).trans p1
    obtain ⟨r0, r1⟩ := up _ _ q0 q1 (by linarith)
    have o2 : overflows f (rnd f (P / t)) = false := nov (by
      rw [abs_of_nonneg q0]
      have : (1:ℚ) ≤ 2 ^ 127 := by norm_num
      norm_num at q1 b2 ⊢; linarith)
    have j2 := j1.div hv (by linarith) o2
    generalize rnd f (P / t) = Q at *
    have q2 : Q ≤ sqC D * (1 / 2 ^ 77) := r1.trans (by norm_num; linarith)
    refine ⟨Q, i1.add j2 (nov ?_), r0, q2⟩
    rw [abs_of_nonneg (by linarith)]
    have : (200:ℚ) ≤ 2 ^ 127 := by norm_num
    linarith
  unfold atan_cf_recur
  rw [show m + 1 - 1 = m by omega, show 1 - 1 = 0 from rfl, whileDown_split _ 0 1 (by omega) m _ hm1, whileDown_one]
  obtain ⟨-, t, ht, ht1⟩ := whileDown_inv (atan_cf_step xx) 1 (fun d v => d ≤ m ∧ ∃ t, Is v t ∧ 1 ≤ t) (by
    rintro d v - ⟨hd, t, hv, ht⟩
    refine ⟨by omega, ?_⟩
    obtain ⟨q, h1, h2, h3⟩ := key (d + 1) v t (by omega) (by omega) hv ht
    refine ⟨_, h1, ?_⟩
    have rone : Rep f 1 := by have := rep_pow2_nat (f := f) (n := 0); simpa using this
    have hd0 : (0:ℚ) ≤ d := Nat.cast_nonneg d
    have := rnd_mono (f := f) (show (1:ℚ) ≤ 2 * ((d + 1 : ℕ) : ℚ) - 1 + q by push_cast; linarith)
    rwa [rone] at this) m (i (2 * ((m + 1 : ℕ) : ℤ) - 1)) hm1 ⟨le_rfl, 2 * ((m:ℚ) + 1) - 1, by
      have := is_i (f := f) (n := 2 * ((m + 1 : ℕ) : ℤ) - 1) (by rw [abs_le]; constructor <;> omega)
      push_cast at this ⊢; exact this, by
      have : (0:ℚ) ≤ m := Nat.cast_nonneg m
      linarith⟩
  obtain ⟨q, h1, h2, h3⟩ := key 1 _ t (by norm_num) le_rfl ht ht1
  have e : rnd f (2 * ((1:ℕ):ℚ) - 1 + q) = 1 := by
    norm_num
    refine rnd_one_add hf h2 (h3.trans ?_)
    norm_num [sqC]
  rw [e] at h1
  exact h1

end Gcem
