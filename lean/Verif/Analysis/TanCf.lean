import Verif.Analysis.TanReal
import Verif.Analysis.AtanSeries
import Verif.Analysis.AtanCf
import Verif.Analysis.SqrtScale
import Verif.Model.Trig

/-!
# Rounding error of the continued fraction of the tangent
-/

namespace Gcem
open FV
variable {f : Fmt}

theorem rep_diff {a b : ℚ} (hf : f.exact = false) (ha : Rep f a) (hb : Rep f b) (h1 : 1 ≤ a) (h2 : 1 ≤ b) :
    ∃ m : ℤ, a - b = m * pow2 (1 - f.prec) := by
  have key : ∀ q : ℚ, Rep f q → 1 ≤ q → ∃ m : ℤ, q = m * pow2 (1 - f.prec) := by
    intro q hr h
    have hq : q ≠ 0 := by linarith
    obtain ⟨m, hm, -⟩ := rep_scaled hf hq hr
    have hl : 0 ≤ ilog2 q := by
      rw [le_ilog2_iff hq, abs_of_pos (by linarith)]
      rw [pow2_zero]; exact h
    have he : 1 - (f.prec : ℤ) ≤ fexp f q := by unfold fexp; omega
    obtain ⟨k, -, hk⟩ := pow2_mult he
    exact ⟨m * k, by push_cast; rw [mul_assoc, ← hk, ← hm]⟩
  obtain ⟨m, hm⟩ := key a ha h1
  obtain ⟨n, hn⟩ := key b hb h2
  exact ⟨m - n, by push_cast; rw [sub_mul, ← hm, ← hn]⟩

theorem two_uro (f : Fmt) : pow2 (1 - f.prec) = 2 * uro f := by
  unfold uro; rw [show (1 - (f.prec:ℤ)) = 1 + -f.prec by ring, pow2_add]; norm_num [pow2_eq]

theorem rep_dist {a b : ℚ} (hf : f.exact = false) (ha : Rep f a) (hb : Rep f b) (h1 : 1 ≤ a) (h2 : 1 ≤ b) (hne : a ≠ b) :
    2 * uro f ≤ |a - b| := by
  obtain ⟨m, hm⟩ := rep_diff hf ha hb h1 h2
  have hpos := pow2_pos (1 - f.prec)
  have hm0 : m ≠ 0 := by
    rintro rfl
    simp at hm
    exact hne (by linarith)
  have : (1:ℚ) ≤ |(m:ℚ)| := by exact_mod_cast Int.one_le_abs hm0
  rw [hm, abs_mul, abs_of_pos hpos, ← two_uro]
  nlinarith

theorem rep_diff_rep {a b : ℚ} (hf : f.exact = false) (ha : Rep f a) (hb : Rep f b) (h1 : 1 ≤ a) (h2 : 1 ≤ b)
    (h : |a - b| ≤ 2) : Rep f (a - b) := by
  obtain ⟨m, hm⟩ := rep_diff hf ha hb h1 h2
  have hpos := pow2_pos (1 - f.prec)
  rw [hm] at h ⊢
  refine rep_of_scaled ?_ (by have := emin_le_prec f; omega)
  rw [abs_mul, abs_of_pos hpos] at h
  have e : (2:ℚ) = 2 ^ f.prec * pow2 (1 - f.prec) := by
    rw [← pow2_nat, ← pow2_add]; norm_num [pow2_eq]
  rw [e] at h
  have := le_of_mul_le_mul_right h hpos
  exact_mod_cast this

/-- one level of the continued fraction -/
theorem tan_step_err {xx v : FV f} {b a : ℚ} {s T E L : ℝ} {d : ℕ} (hb : Is xx b) (hbs : |(b:ℝ) - s| ≤ wro f * s)
    (hs0 : 1 / 2 ^ 81 ≤ s) (hs1 : s ≤ 10) (ha : Is v a) (hT : |(a:ℝ) - T| ≤ E) (hL : L ≤ T) (hT' : T ≤ 120)
    (hE0 : E ≤ L - 2) (hL3 : 3 ≤ L) (hsL : s ≤ 19 / 10 * ((2 * d - 1) * (L - E))) (hd : 2 ≤ d) (hd' : d ≤ 60) :
    ∃ r q, Is (i (2 * d - 1) - xx / v) r ∧ Rep f q ∧ 0 ≤ q ∧ r = rnd f (2 * d - 1 - q) ∧
      |(r:ℝ) - (2 * d - 1 - s / T)| ≤ (2 * d - 1) * wro f + 21 / 10 * wro f * (s / (L - E)) + s / (L * (L - E)) * E := by
  have hw0 : (0:ℝ) < wro f := by exact_mod_cast wro_pos f
  have hw1 : (wro f:ℝ) ≤ 1 / 10000000 := by
    have := (Rat.cast_le (K := ℝ)).2 (wro_le f); push_cast at this; exact this
  have s0 : 0 < s := lt_of_lt_of_le (by norm_num) hs0
  have hT2 := abs_le.1 hT
  have E0 : 0 ≤ E := (abs_nonneg _).trans hT
  have aL : L - E ≤ a := by linarith
  have a2 : (2:ℝ) ≤ a := by linarith
  have a0 : (0:ℝ) < a := by linarith
  have aq0 : 0 < a := by exact_mod_cast a0
  have aq1 : a ≤ 250 := by
    have : (a:ℝ) ≤ ((250:ℚ):ℝ) := by push_cast; linarith
    exact_mod_cast this
  have d2 : (2:ℝ) ≤ d := by exact_mod_cast hd
  have d60 : (d:ℝ) ≤ 60 := by exact_mod_cast hd'
  have hb2 := abs_le.1 hbs
  have ws : (wro f:ℝ) * s ≤ 1 / 10000000 * s := mul_le_mul_of_nonneg_right hw1 s0.le
  have bl : 1 / 2 ^ 82 ≤ b := by
    have : (((1 / 2 ^ 82 : ℚ)) : ℝ) ≤ b := by push_cast; norm_num only at hs0 ⊢; linarith
    exact_mod_cast this
  have bu : b ≤ 11 := by
    have : (b:ℝ) ≤ ((11 : ℚ) : ℝ) := by push_cast; linarith
    exact_mod_cast this
  have b0 : 0 < b := lt_of_lt_of_le (by norm_num) bl
  have q0 : 0 < b / a := by positivity
  have aq2 : 2 ≤ a := by exact_mod_cast a2
  have q1 : b / a ≤ 6 := by rw [div_le_iff₀ aq0]; linarith
  have q2 : 1 / 2 ^ 91 ≤ b / a := by
    rw [le_div_iff₀ aq0]
    have : (1 / 2 ^ 91 : ℚ) * a ≤ 1 / 2 ^ 91 * 250 := mul_le_mul_of_nonneg_left aq1 (by norm_num)
    refine this.trans (le_trans (by norm_num) bl)
  have i1 := hb.div ha aq0.ne' (nov (by rw [abs_of_pos q0]; exact q1.trans (by norm_num)))
  have e1 := rnd_err_rel (f := f) (q := b / a) (by
    rw [abs_of_pos q0]; exact (minNormal_le' f).trans (le_trans (by norm_num) q2))
  rw [abs_of_pos q0] at e1
  have e1r := (Rat.cast_le (K := ℝ)).2 e1
  rw [Rat.cast_abs, Rat.cast_sub, Rat.cast_mul, Rat.cast_div] at e1r
  have hu : (uro f:ℝ) ≤ wro f := by
    have : uro f ≤ wro f := by unfold wro; linarith [uro_pos f]
    exact_mod_cast this
  set q := rnd f (b / a) with hq
  -- distance to s / a
  have k1 : |(b:ℝ) / a - s / a| ≤ wro f * (s / a) := by
    rw [← sub_div, abs_div, abs_of_pos a0, ← mul_div_assoc]
    exact div_le_div_of_nonneg_right hbs a0.le
  have sa0 : 0 < s / (a:ℝ) := by positivity
  have sa1 : s / a ≤ s / (L - E) := div_le_div_of_nonneg_left s0.le (by linarith) aL
  have k2 : |(q:ℝ) - s / a| ≤ 205 / 100 * wro f * (s / a) := by
    have e : (q:ℝ) - s / a = (q - b / a) + (b / a - s / a) := by ring
    rw [e]
    refine (abs_add_le _ _).trans ((add_le_add e1r k1).trans ?_)
    have h1 := (abs_le.1 k1).2
    have h2 : (b:ℝ) / a ≤ (1 + wro f) * (s / a) := by linarith
    have h3 : (uro f:ℝ) * (b / a) ≤ wro f * ((1 + wro f) * (s / a)) :=
      mul_le_mul hu h2 (by exact_mod_cast q0.le) hw0.le
    have h4 : (1 + (wro f:ℝ)) * (s / a) ≤ 101 / 100 * (s / a) := mul_le_mul_of_nonneg_right (by linarith) sa0.le
    have h5 := mul_le_mul_of_nonneg_left h4 hw0.le
    have h6 : 0 ≤ (wro f:ℝ) * (s / a) := by positivity
    linarith
  have sLd : s / (L - E) ≤ 19 / 10 * (2 * d - 1) := by rw [div_le_iff₀ (by linarith), mul_assoc]; exact hsL
  have k3 := abs_le.1 k2
  have w3 : 205 / 100 * (wro f:ℝ) * (s / a) ≤ 1 / 100 * (s / a) := mul_le_mul_of_nonneg_right (by linarith) sa0.le
  have qu : (q:ℝ) ≤ 2 * (2 * d - 1) := by linarith
  have ql : 0 ≤ q := rnd_nonneg q0.le
  have ii : Is (i (2 * (d : ℤ) - 1) : FV f) (2 * (d : ℚ) - 1) := by
    have := is_i (f := f) (n := 2 * (d : ℤ) - 1) (by rw [abs_le]; constructor <;> omega)
    push_cast at this; exact this
  have dq2 : (2:ℚ) ≤ d := by exact_mod_cast hd
  have dq60 : (d:ℚ) ≤ 60 := by exact_mod_cast hd'
  have qu' : q ≤ 2 * (2 * d - 1) := by exact_mod_cast qu
  have bd : |2 * (d:ℚ) - 1 - q| ≤ 2 * d - 1 := by rw [abs_le]; constructor <;> linarith
  have i2 := ii.sub i1 (nov (bd.trans (by norm_num; linarith)))
  have e2 := rnd_abs (f := f) (by linarith) bd
  have e2r := (Rat.cast_le (K := ℝ)).2 e2
  rw [Rat.cast_abs] at e2r
  push_cast at e2r
  refine ⟨_, q, i2, rep_rnd _ _, ql, rfl, ?_⟩
  have k4 : |s / a - s / T| ≤ s / (L * (L - E)) * E := by
    have hT0 : 0 < T := by linarith
    have e : s / a - s / T = s / (T * a) * (T - a) := by field_simp
    rw [e, abs_mul, abs_of_pos (by positivity), abs_sub_comm]
    have hLE : 0 < L - E := by linarith
    have hL0 : 0 < L := by linarith
    refine mul_le_mul ?_ hT (abs_nonneg _) (by positivity)
    exact div_le_div_of_nonneg_left s0.le (by nlinarith) (mul_le_mul hL aL (by linarith) hT0.le)
  have e : ((rnd f (2 * (d:ℚ) - 1 - q) : ℚ) : ℝ) - (2 * d - 1 - s / T) =
      ((rnd f (2 * (d:ℚ) - 1 - q) : ℚ) - (2 * d - 1 - q)) + (-(q - s / a)) + (-(s / a - s / T)) := by ring
  rw [e]
  refine (abs_add_le _ _).trans ((add_le_add_left (abs_add_le _ _) _).trans ?_)
  rw [abs_neg, abs_neg]
  have k5 : 205 / 100 * (wro f:ℝ) * (s / a) ≤ 21 / 10 * wro f * (s / (L - E)) := by
    have := mul_le_mul_of_nonneg_left sa1 hw0.le
    have : 0 ≤ (wro f:ℝ) * (s / a) := by positivity
    linarith
  linarith

theorem tan_cf_unfold (xx : FV f) {d N : ℕ} (h : d < N) :
    tan_cf_recur xx d N = i (2 * d - 1) - xx / tan_cf_recur xx (d + 1) N := by
  rw [tan_cf_recur, if_pos h]

theorem tan_cf_last (xx : FV f) (N : ℕ) : tan_cf_recur xx N N = i (2 * N - 1) := by
  rw [tan_cf_recur, if_neg (lt_irrefl N)]

/-- the levels from the deepest up to the fifth -/
theorem tan_cf_deep {xx : FV f} {b : ℚ} {x ρ : ℝ} {N : ℕ} (hx0 : 1 / 2 ^ 40 ≤ x) (hx1 : x ≤ 315 / 100) (hb : Is xx b)
    (hbs : |(b:ℝ) - x ^ 2| ≤ wro f * x ^ 2) (hρ0 : 0 < ρ) (hρ : x ^ 2 ≤ 62 * ρ) (hρ1 : ρ ≤ 1 / 6) (hN : N ≤ 60) (hN5 : 5 ≤ N)
    (k : ℕ) (hk : k + 5 ≤ N) :
    ∃ a, Is (tan_cf_recur xx (N - k) N) a ∧
      |(a:ℝ) - tanT (N - k) x| ≤ 17 / 10 * (2 * ((N - k : ℕ) : ℝ) - 1) * wro f + 2 * ρ ^ k := by
  have hw0 : (0:ℝ) < wro f := by exact_mod_cast wro_pos f
  have hw1 : (wro f:ℝ) ≤ 1 / 10000000 := by
    have := (Rat.cast_le (K := ℝ)).2 (wro_le f); push_cast at this; exact this
  have x0 : 0 < x := lt_of_lt_of_le (by norm_num) hx0
  have s0 : 1 / 2 ^ 81 ≤ x ^ 2 := by
    have : (1 / 2 ^ 40 : ℝ) ^ 2 ≤ x ^ 2 := by gcongr
    exact le_trans (by norm_num) this
  have s1 : x ^ 2 ≤ 10 := by nlinarith
  induction k with
  | zero =>
    refine ⟨2 * N - 1, ?_, ?_⟩
    · have := is_i (f := f) (n := 2 * (N : ℤ) - 1) (by rw [abs_le]; constructor <;> omega)
      push_cast at this
      rw [Nat.sub_zero, tan_cf_last]; exact this
    · have h := tanT_bounds (N - 3) x0 hx1
      rw [show N - 3 + 3 = N by omega] at h
      have e : ((N - 3 : ℕ) : ℝ) = N - 3 := by push_cast [Nat.cast_sub (show 3 ≤ N by omega)]; ring
      rw [e] at h
      have n5 : (5:ℝ) ≤ N := by exact_mod_cast hN5
      rw [Nat.sub_zero, pow_zero, abs_le]
      have : 0 ≤ 17 / 10 * (2 * (N:ℝ) - 1) * wro f := by
        have : 0 ≤ 2 * (N:ℝ) - 1 := by linarith
        positivity
      push_cast
      constructor <;> linarith
  | succ k ih =>
    obtain ⟨a, ha, hE⟩ := ih (by omega)
    obtain ⟨d, hd⟩ : ∃ d, N - (k + 1) = d := ⟨_, rfl⟩
    have hd1 : N - k = d + 1 := by omega
    have d5 : 5 ≤ d := by omega
    have d60 : d ≤ 59 := by omega
    rw [hd1] at ha hE
    rw [hd, tan_cf_unfold xx (show d < N by omega)]
    have dr : (5:ℝ) ≤ d := by exact_mod_cast d5
    have dr' : (d:ℝ) ≤ 59 := by exact_mod_cast d60
    have hT := tanT_bounds (d - 2) x0 hx1
    rw [show d - 2 + 3 = d + 1 by omega] at hT
    have e : ((d - 2 : ℕ) : ℝ) = d - 2 := by push_cast [Nat.cast_sub (show 2 ≤ d by omega)]; ring
    rw [e] at hT
    have hrec := tanT_rec (d - 2) x0 hx1
    rw [show d - 2 + 2 = d by omega, show d - 2 + 3 = d + 1 by omega, e] at hrec
    set E := 17 / 10 * (2 * ((d + 1 : ℕ) : ℝ) - 1) * (wro f : ℝ) + 2 * ρ ^ k with hEd
    push_cast at hEd
    have pk0 : 0 < ρ ^ k := by positivity
    have pk : ρ ^ k ≤ 1 := pow_le_one₀ hρ0.le (by linarith)
    have w1 : 17 / 10 * (2 * ((d:ℝ) + 1) - 1) * wro f ≤ 1 / 1000 := by nlinarith
    have E2 : E ≤ 2 + 1 / 1000 := by rw [hEd]; linarith
    obtain ⟨r, q, hr, -, -, -, hr3⟩ := tan_step_err (d := d) (L := 2 * d - 1) hb hbs s0 s1 ha hE (by linarith) (by linarith) (by linarith)
      (by linarith) (by nlinarith) (by omega) (by omega)
    refine ⟨r, hr, ?_⟩
    rw [hrec, show 2 * ((d:ℝ) - 2) + 3 = 2 * d - 1 by ring]
    refine hr3.trans ?_
    have LE : (6999:ℝ) / 1000 ≤ 2 * d - 1 - E := by linarith
    have c1 : x ^ 2 / (2 * d - 1 - E) ≤ 1431 / 1000 := by
      rw [div_le_iff₀ (by linarith)]; linarith
    have hLL : (9:ℝ) * (6999 / 1000) ≤ (2 * d - 1) * (2 * d - 1 - E) :=
      mul_le_mul (by linarith) LE (by norm_num) (by linarith)
    have c2 : x ^ 2 / ((2 * d - 1) * (2 * d - 1 - E)) ≤ ρ := by
      rw [div_le_iff₀ (by linarith)]
      have := mul_le_mul_of_nonneg_left hLL hρ0.le
      linarith
    have c0 : 0 ≤ x ^ 2 / ((2 * d - 1) * (2 * d - 1 - E)) := by
      have : 0 < (2 * d - 1) * (2 * d - 1 - E) := by linarith
      positivity
    have c3 : x ^ 2 / ((2 * d - 1) * (2 * d - 1 - E)) ≤ 159 / 1000 := by
      rw [div_le_iff₀ (by linarith)]
      linarith
    have m1 := mul_le_mul_of_nonneg_left c1 hw0.le
    have m2 := mul_le_mul_of_nonneg_right c2 pk0.le
    have m3 := mul_le_mul_of_nonneg_right c3 (show 0 ≤ (2 * ((d:ℝ) + 1) - 1) * wro f by
      have : 0 ≤ 2 * ((d:ℝ) + 1) - 1 := by linarith
      positivity)
    rw [pow_succ ρ]
    have m4 : 5 * (wro f:ℝ) ≤ d * wro f := mul_le_mul_of_nonneg_right dr hw0.le
    clear hr3 hrec hE hT LE hLL c0 c1 c2 c3
    generalize x ^ 2 / ((2 * d - 1) * (2 * d - 1 - E)) = C at *
    generalize x ^ 2 / (2 * d - 1 - E) = C' at *
    have e3 : C * E = 17 / 10 * (C * ((2 * ((d:ℝ) + 1) - 1) * wro f)) + 2 * (C * ρ ^ k) := by rw [hEd]; ring
    rw [e3]
    generalize C * ((2 * ((d:ℝ) + 1) - 1) * wro f) = C1 at *
    generalize C * ρ ^ k = C2 at *
    linarith

/-- the second level, before the outermost two operations -/
theorem tan_cf_two {xx : FV f} {b : ℚ} {x ρ : ℝ} {N : ℕ} (hf : f.exact = false) (hx0 : 1 / 2 ^ 40 ≤ x) (hx1 : x ≤ 315 / 100) (hb : Is xx b)
    (hbs : |(b:ℝ) - x ^ 2| ≤ wro f * x ^ 2) (hρ0 : 0 < ρ) (hρ : x ^ 2 ≤ 62 * ρ) (hρ1 : ρ ≤ 1 / 6) (hN : N ≤ 60) (hN5 : 5 ≤ N)
    (htr : 2 * ρ ^ (N - 5) ≤ 1 / 10 * wro f) :
    ∃ a, Is (tan_cf_recur xx 2 N) a ∧ |(a:ℝ) - tanT 2 x| ≤ 27 * wro f ∧ Rep f a ∧ (a = 0 ∨ 2 * uro f ≤ |a|) := by
  have hw0 : (0:ℝ) < wro f := by exact_mod_cast wro_pos f
  have hw1 : (wro f:ℝ) ≤ 1 / 10000000 := by
    have := (Rat.cast_le (K := ℝ)).2 (wro_le f); push_cast at this; exact this
  have x0 : 0 < x := lt_of_lt_of_le (by norm_num) hx0
  have s0 : 1 / 2 ^ 81 ≤ x ^ 2 := by
    have : (1 / 2 ^ 40 : ℝ) ^ 2 ≤ x ^ 2 := by gcongr
    exact le_trans (by norm_num) this
  have s1 : x ^ 2 ≤ 10 := by nlinarith
  obtain ⟨a5, h5, E5⟩ := tan_cf_deep hx0 hx1 hb hbs hρ0 hρ hρ1 hN hN5 (N - 5) (by omega)
  rw [show N - (N - 5) = 5 by omega] at h5 E5
  have E5' : |(a5:ℝ) - tanT 5 x| ≤ 154 / 10 * wro f := by
    refine E5.trans ?_
    push_cast; linarith
  have st : ∀ (d : ℕ) (a : ℚ) (A B : ℝ), 2 ≤ d → d ≤ 4 → Is (tan_cf_recur xx (d + 1) N) a → |(a:ℝ) - tanT (d + 1) x| ≤ A * wro f →
      0 ≤ A → A ≤ 100 →
      (2 * d - 1) + 21 / 10 * (10 / (2 * d - 1 - 1 / 1000)) + 10 / ((2 * d - 1) * (2 * d - 1 - 1 / 1000)) * A ≤ B →
      ∃ r q, Is (tan_cf_recur xx d N) r ∧ Rep f q ∧ 0 ≤ q ∧ r = rnd f (2 * d - 1 - q) ∧ |(r:ℝ) - tanT d x| ≤ B * wro f := by
    intro d a A B hd hd4 ha hE A0 A1 hB
    rw [tan_cf_unfold xx (show d < N by omega)]
    have dr : (2:ℝ) ≤ d := by exact_mod_cast hd
    have dr' : (d:ℝ) ≤ 4 := by exact_mod_cast hd4
    have hT := tanT_bounds (d - 2) x0 hx1
    rw [show d - 2 + 3 = d + 1 by omega] at hT
    have e : ((d - 2 : ℕ) : ℝ) = d - 2 := by push_cast [Nat.cast_sub (show 2 ≤ d by omega)]; ring
    rw [e] at hT
    have hrec := tanT_rec (d - 2) x0 hx1
    rw [show d - 2 + 2 = d by omega, show d - 2 + 3 = d + 1 by omega, e] at hrec
    have Aw : A * wro f ≤ 1 / 1000 := by nlinarith
    have hs : x ^ 2 ≤ 99225 / 10000 := by nlinarith
    have Aw0 : 0 ≤ A * wro f := by positivity
    obtain ⟨r, q, hr, h1, h2, h3, h4⟩ := tan_step_err (d := d) (L := 2 * d - 1) hb hbs s0 s1 ha hE (by linarith) (by linarith) (by linarith)
      (by linarith) (by nlinarith) (by omega) (by omega)
    refine ⟨r, q, hr, h1, h2, h3, ?_⟩
    rw [hrec, show 2 * ((d:ℝ) - 2) + 3 = 2 * d - 1 by ring]
    refine h4.trans ?_
    have LE : 2 * d - 1 - 1 / 1000 ≤ 2 * d - 1 - A * (wro f : ℝ) := by linarith
    have L0 : 0 < 2 * (d:ℝ) - 1 - 1 / 1000 := by linarith
    have c1 : x ^ 2 / (2 * d - 1 - A * wro f) ≤ 10 / (2 * d - 1 - 1 / 1000) := div_le_div₀ (by norm_num) s1 L0 LE
    have c2 : x ^ 2 / ((2 * d - 1) * (2 * d - 1 - A * wro f)) ≤ 10 / ((2 * d - 1) * (2 * d - 1 - 1 / 1000)) :=
      div_le_div₀ (by norm_num) s1 (by nlinarith) (by nlinarith)
    have m1 := mul_le_mul_of_nonneg_left c1 (show 0 ≤ 21 / 10 * (wro f : ℝ) by positivity)
    have m2 := mul_le_mul_of_nonneg_right c2 Aw0
    have m3 := mul_le_mul_of_nonneg_right hB hw0.le
    generalize 10 / ((2 * (d:ℝ) - 1) * (2 * d - 1 - 1 / 1000)) = C1 at *
    generalize 10 / (2 * (d:ℝ) - 1 - 1 / 1000) = C2 at *
    linarith
  obtain ⟨a4, -, h4, -, -, -, E4⟩ := st 4 a5 (154 / 10) (132 / 10) (by norm_num) le_rfl h5 E5' (by norm_num) (by norm_num) (by norm_num)
  obtain ⟨a3, -, h3, -, -, -, E3⟩ := st 3 a4 (132 / 10) (146 / 10) (by norm_num) (by norm_num) h4 E4 (by norm_num) (by norm_num) (by norm_num)
  obtain ⟨a2, q, h2, hq, q0, e2, E2⟩ := st 2 a3 (146 / 10) 27 (by norm_num) (by norm_num) h3 E3 (by norm_num) (by norm_num) (by norm_num)
  refine ⟨a2, h2, E2, by rw [e2]; exact rep_rnd _ _, ?_⟩
  have e3 : (2 * ((2:ℕ):ℚ) - 1 - q) = 3 - q := by norm_num
  rw [e3] at e2
  have hu := uro_pos f
  have hu2 := uro_lt_half f
  have r2 : Rep f (2 * uro f) := by rw [← two_uro]; exact rep_pow2 (by have := emin_le_prec f; omega)
  rcases eq_or_ne q 3 with h | h
  · left; rw [e2, h, sub_self]; exact rnd_zero f
  · right
    have hd : 2 * uro f ≤ |3 - q| := by
      rcases lt_or_ge q 1 with hq1 | hq1
      · rw [abs_of_pos (by linarith)]; linarith
      · exact rep_dist hf (by have := rep_int (f := f) (n := 3) (le_trans (by norm_num) (two_pow_prec f)); exact_mod_cast this) hq (by norm_num) hq1 (Ne.symm h)
    rw [e2, abs_rnd]
    exact le_rnd_of_rep r2 hd

theorem wro_cast (f : Fmt) : (0:ℝ) < wro f ∧ (wro f:ℝ) ≤ 1 / 10000000 ∧ (uro f:ℝ) ≤ wro f := by
  refine ⟨by exact_mod_cast wro_pos f, ?_, ?_⟩
  · have := (Rat.cast_le (K := ℝ)).2 (wro_le f); push_cast at this; exact this
  · have : uro f ≤ wro f := by unfold wro; linarith [uro_pos f]
    exact_mod_cast this

/-- a relative error as a factor -/
theorem exists_rel {r q u : ℝ} (hu : 0 ≤ u) (h : |r - q| ≤ u * |q|) : ∃ δ, |δ| ≤ u ∧ r = q * (1 + δ) := by
  rcases eq_or_ne q 0 with hq | hq
  · refine ⟨0, by rwa [abs_zero], ?_⟩
    rw [hq, abs_zero, mul_zero, sub_zero] at h
    rw [hq, zero_mul]; exact abs_nonpos_iff.1 h
  · refine ⟨(r - q) / q, ?_, by field_simp; ring⟩
    rw [abs_div, div_le_iff₀ (abs_pos.2 hq)]; exact h

theorem exists_rel_rnd {q : ℚ} (h : minNormal f ≤ |q|) : ∃ δ : ℝ, |δ| ≤ uro f ∧ ((rnd f q : ℚ) : ℝ) = q * (1 + δ) := by
  refine exists_rel (by exact_mod_cast (uro_pos f).le) ?_
  have := (Rat.cast_le (K := ℝ)).2 (rnd_err_rel h)
  push_cast at this; exact this

theorem tan_zero_tail {b x : ℚ} (z z' z2 : Bool) (hb : 0 < b) :
    Is ((fin x z2 : FV f) / (i 1 - (fin b z' : FV f) / fin 0 z)) 0 := by
  obtain ⟨z3, h3⟩ := is_i (f := f) (n := 1) (by norm_num)
  rw [h3]
  show Is (FV.div (fin x z2) (FV.sub (fin _ z3) (FV.div (fin b z') (fin 0 z)))) 0
  simp only [FV.div, if_true, hb.ne', if_false, FV.sub, FV.neg, FV.add]
  exact ⟨_, rfl⟩

/-- when the second level vanishes the result is the tangent of a multiple of π near the argument -/
theorem tan_final_zero {x w : ℝ} (hx0 : 0 < x) (hx1 : x ≤ 315 / 100) (hw0 : 0 < w) (hw1 : w ≤ 1 / 10000000)
    (ha : |tanT 2 x| ≤ 27 * w) : ∃ θ, Real.tan θ = 0 ∧ Real.cos θ ≠ 0 ∧ |θ - x| ≤ 15 * w * x := by
  have hs := sin_eq_tanT hx0 hx1
  have hcs := cos_eq_tanT hx0 hx1
  obtain ⟨k0, k1⟩ := tanK_bounds hx0 hx1
  have hT3 := tanT_bounds 0 hx0 hx1
  have hrec := tanT_rec 0 hx0 hx1
  norm_num only [Nat.cast_zero, zero_add, mul_zero] at hT3 hrec
  have hq1 : x ^ 2 / tanT 3 x ≤ x ^ 2 / 3 := div_le_div_of_nonneg_left (by positivity) (by norm_num) hT3.1
  have h := abs_le.1 ha
  have s9 : 89 / 10 ≤ x ^ 2 := by linarith
  have hP : tanK x * (89 / 10 - 27 * w) ≤ 0 * Real.sin x + (-1) * Real.cos x := by
    rw [hcs]
    have := mul_le_mul_of_nonneg_left (show 89 / 10 - 27 * w ≤ x ^ 2 - tanT 2 x by linarith) k0.le
    linarith
  have hP0 : 0 < tanK x * (89 / 10 - 27 * w) := mul_pos k0 (by linarith)
  obtain ⟨θ, h1, h2, h3⟩ := tan_backward (x := x) (N := 0) (D := -1) (by norm_num) (lt_of_lt_of_le hP0 hP)
  refine ⟨θ, by rw [h1]; simp, h2, h3.trans ?_⟩
  rw [div_le_iff₀ (lt_of_lt_of_le hP0 hP)]
  refine le_trans ?_ (mul_le_mul_of_nonneg_left hP (by positivity))
  rw [show 0 * Real.cos x - -1 * Real.sin x = Real.sin x by ring, hs, abs_mul, abs_of_pos (show 0 < tanK x * x by positivity)]
  have := mul_le_mul_of_nonneg_left ha (show 0 ≤ tanK x * x by positivity)
  have h5 : 0 ≤ tanK x * x * w := by positivity
  have h6 : tanK x * x * w * (27 * w) ≤ tanK x * x * w * 1 := mul_le_mul_of_nonneg_left (by linarith) h5
  linarith

/-- the quotient computed from the continued fraction is the tangent of a nearby angle -/
theorem tan_cf_back {v : FV f} {x : ℚ} {ρ : ℝ} {N : ℕ} (hf : f.exact = false) (hv : Is v x) (hx0 : 1 / 2 ^ 40 ≤ x) (hx1 : x ≤ 315 / 100)
    (hc : 1 / 200 ≤ |Real.cos x|) (hρ0 : 0 < ρ) (hρ : (x:ℝ) ^ 2 ≤ 62 * ρ) (hρ1 : ρ ≤ 1 / 6) (hN : N ≤ 60) (hN5 : 5 ≤ N)
    (htr : 2 * ρ ^ (N - 5) ≤ 1 / 10 * wro f) :
    ∃ (r : ℚ) (θ : ℝ), Is (v / tan_cf_recur (v * v) 1 N) r ∧ Real.tan θ = r ∧ Real.cos θ ≠ 0 ∧ |θ - x| ≤ 15 * wro f * x ∧
      |r| ≤ 101 / 100 * 2 ^ 63 ∧ (r = 0 ∨ minNormal f ≤ |r|) := by
  obtain ⟨hw0, hw1, hu⟩ := wro_cast f
  have hu0 : (0:ℝ) < uro f := by exact_mod_cast uro_pos f
  have u64 : (1:ℚ) / 2 ^ 64 ≤ uro f := uro_ge' f
  have x0 : 0 < x := lt_of_lt_of_le (by norm_num) hx0
  have hx0r : (1:ℝ) / 2 ^ 40 ≤ x := by have := (Rat.cast_le (K := ℝ)).2 hx0; push_cast at this; exact this
  have hx1r : (x:ℝ) ≤ 315 / 100 := by have := (Rat.cast_le (K := ℝ)).2 hx1; push_cast at this; exact this
  have x0r : (0:ℝ) < x := by exact_mod_cast x0
  have s0 : 1 / 2 ^ 80 ≤ x * x := by
    have := mul_le_mul hx0 hx0 (by norm_num) x0.le
    exact le_trans (by norm_num) this
  have s1 : x * x ≤ 10 := by nlinarith
  have ib := hv.mul hv (nov (by rw [abs_of_pos (by positivity)]; exact s1.trans (by norm_num)))
  obtain ⟨β, hβ, eb⟩ := exists_rel_rnd (f := f) (q := x * x) (by
    rw [abs_of_pos (by positivity)]; exact (minNormal_le' f).trans (le_trans (by norm_num) s0))
  set b := rnd f (x * x) with hb
  have b0 : 1 / 2 ^ 81 ≤ b := le_trans (by norm_num) (le_rnd_of_rep (rep_inv_pow2 (f := f) (k := 80) (by norm_num)) s0)
  have b1 : b ≤ 16 := rnd_le_of_rep (by have := rep_pow2_nat (f := f) (n := 4); norm_num at this; exact this) (by linarith)
  push_cast at eb
  have hbs : |(b:ℝ) - (x:ℝ) ^ 2| ≤ wro f * (x:ℝ) ^ 2 := by
    rw [eb, show (x:ℝ) * x * (1 + β) - x ^ 2 = β * x ^ 2 by ring, abs_mul, abs_of_pos (show (0:ℝ) < x ^ 2 by positivity)]
    exact mul_le_mul_of_nonneg_right (hβ.trans hu) (by positivity)
  obtain ⟨a, ia, ha, ra, hz⟩ := tan_cf_two hf hx0r hx1r ib hbs hρ0 hρ hρ1 hN hN5 htr
  have e1 : tan_cf_recur (v * v) 1 N = i 1 - v * v / tan_cf_recur (v * v) 2 N := by
    rw [tan_cf_unfold _ (show 1 < N by omega)]; norm_num
  rw [e1]
  rcases hz with rfl | hz
  · -- the second level vanishes
    obtain ⟨z, ez⟩ := ia
    obtain ⟨z', ez'⟩ := ib
    obtain ⟨z2, ez2⟩ := hv
    push_cast at ha
    rw [zero_sub, abs_neg] at ha
    obtain ⟨θ, h1, h2, h3⟩ := tan_final_zero x0r hx1r hw0 hw1 ha
    refine ⟨0, θ, ?_, by rw [h1]; simp, h2, h3, by simp, Or.inl rfl⟩
    rw [ez, ez', ez2]
    exact tan_zero_tail _ _ _ (by linarith)
  · have hz' : 1 / 2 ^ 63 ≤ |a| := le_trans (by norm_num at u64 ⊢; linarith) hz
    have aa0 : 0 < |a| := lt_of_lt_of_le (by norm_num) hz'
    have a0 : a ≠ 0 := abs_pos.1 aa0
    have aT : |a| ≤ 4 := by
      have hT3 := tanT_bounds 0 x0r hx1r
      have hrec := tanT_rec 0 x0r hx1r
      norm_num only [Nat.cast_zero, zero_add, mul_zero] at hT3 hrec
      have h1 : 0 ≤ (x:ℝ) ^ 2 / tanT 3 x := div_nonneg (by positivity) (by linarith [hT3.1])
      have h2 : (x:ℝ) ^ 2 / tanT 3 x ≤ (x:ℝ) ^ 2 / 3 := div_le_div_of_nonneg_left (by positivity) (by norm_num) hT3.1
      have h3 : (x:ℝ) ^ 2 ≤ 10 := by nlinarith
      have h4 := abs_le.1 ha
      have : |(a:ℝ)| ≤ ((4:ℚ):ℝ) := by push_cast; rw [abs_le]; constructor <;> linarith
      exact_mod_cast this
    have q0 : 1 / 2 ^ 90 ≤ |b / a| := by
      rw [abs_div, abs_of_pos (by linarith), le_div_iff₀ aa0]
      have : (1 / 2 ^ 90 : ℚ) * |a| ≤ 1 / 2 ^ 90 * 4 := mul_le_mul_of_nonneg_left aT (by norm_num)
      exact this.trans (le_trans (by norm_num) b0)
    have q1 : |b / a| ≤ 2 ^ 67 := by
      rw [abs_div, abs_of_pos (by linarith), div_le_iff₀ aa0]
      have : (2 ^ 67 : ℚ) * (1 / 2 ^ 63) ≤ 2 ^ 67 * |a| := mul_le_mul_of_nonneg_left hz' (by norm_num)
      norm_num at this ⊢; linarith
    have i1 := ib.div ia a0 (nov (q1.trans (by norm_num)))
    obtain ⟨ε', hε', eq⟩ := exists_rel_rnd (f := f) (q := b / a) ((minNormal_le' f).trans (le_trans (by norm_num) q0))
    have q1' : |rnd f (b / a)| ≤ 2 ^ 67 := abs_rnd_le_of_rep rep_pow2_nat q1
    have rq : Rep f (rnd f (b / a)) := rep_rnd _ _
    set q := rnd f (b / a) with hq
    push_cast at eq
    have ione : Is (i 1 : FV f) 1 := by have := is_i (f := f) (n := 1) (by norm_num); push_cast at this; exact this
    have r1 : Rep f 1 := by have := rep_pow2_nat (f := f) (n := 0); norm_num at this; exact this
    have t1 : |1 - q| ≤ 2 ^ 68 := (abs_sub _ _).trans (by norm_num at q1' ⊢; linarith)
    have i2 := ione.sub i1 (nov (t1.trans (by norm_num)))
    have h2 := (Rat.cast_le (K := ℝ)).2 (rnd_add_rel (f := f) r1 rq.neg)
    rw [← sub_eq_add_neg] at h2
    push_cast at h2
    obtain ⟨δ₂, hδ₂, et⟩ := exists_rel hu0.le h2
    have t2 : |rnd f (1 - q)| ≤ 2 ^ 68 := abs_rnd_le_of_rep rep_pow2_nat t1
    set t := rnd f (1 - q) with ht
    -- the combined relative error of the quotient
    obtain ⟨ε, hεd⟩ : ∃ ε : ℝ, ε = (1 + β) * (1 + ε') - 1 := ⟨_, rfl⟩
    have hε : |ε| ≤ 201 / 100 * wro f := by
      rw [hεd, show (1 + β) * (1 + ε') - 1 = β + ε' + β * ε' by ring]
      have h1 : |β * ε'| ≤ wro f * (1 / 10000000) := by
        rw [abs_mul]; exact mul_le_mul (hβ.trans hu) ((hε'.trans hu).trans hw1) (abs_nonneg _) hw0.le
      have h3 := abs_add_le (β + ε') (β * ε')
      have h4 := abs_add_le β ε'
      linarith [hβ.trans hu, hε'.trans hu]
    have a0r : (a:ℝ) ≠ 0 := by exact_mod_cast a0
    have eD : (t:ℝ) = (1 + δ₂) * (a - (x:ℝ) ^ 2 * (1 + ε)) / a := by
      rw [et, eq, eb, hεd]; field_simp; ring
    obtain ⟨hD, -⟩ := tan_final (δ₂ := 0) (δ₃ := 0) x0r hx1r hc hw0 hw1 ha hε (by simp [hw0.le]) (by simp [hw0.le])
    have tl : 1 / 512 ≤ |t| := by
      have : ((1 / 512 : ℚ) : ℝ) ≤ |(t:ℝ)| := by
        rw [eD, abs_div, abs_mul, le_div_iff₀ (abs_pos.2 a0r)]
        have h5 : (99:ℝ) / 100 ≤ |1 + δ₂| := by
          rw [abs_of_pos] <;> linarith [(abs_le.1 (hδ₂.trans hu)).1]
        have h6 : |(a:ℝ)| ≤ 4 := by have := (Rat.cast_le (K := ℝ)).2 aT; push_cast at this; exact this
        have h7 := mul_le_mul h5 hD (by norm_num) (by positivity)
        push_cast
        linarith
      exact_mod_cast this
    have tp : 0 < |t| := lt_of_lt_of_le (by norm_num) tl
    have t0 : t ≠ 0 := abs_pos.1 tp
    have z0 : 1 / 2 ^ 120 ≤ |x / t| := by
      rw [abs_div, abs_of_pos x0, le_div_iff₀ tp]
      have : (1 / 2 ^ 120 : ℚ) * |t| ≤ 1 / 2 ^ 120 * 2 ^ 68 := mul_le_mul_of_nonneg_left t2 (by norm_num)
      exact this.trans (le_trans (by norm_num) hx0)
    have z1 : |x / t| ≤ 2 ^ 12 := by
      rw [abs_div, abs_of_pos x0, div_le_iff₀ tp]
      linarith
    have i3 := hv.div i2 t0 (nov (z1.trans (by norm_num)))
    obtain ⟨δ₃, hδ₃, er⟩ := exists_rel_rnd (f := f) (q := x / t) ((minNormal_le' f).trans (le_trans (by norm_num) z0))
    obtain ⟨-, θ, h1, h2, h3⟩ := tan_final x0r hx1r hc hw0 hw1 ha hε (hδ₂.trans hu) (hδ₃.trans hu)
    have z2 : |rnd f (x / t)| ≤ 101 / 100 * 2 ^ 63 := (abs_rnd_le_of_rep rep_pow2_nat z1).trans (by norm_num)
    have z3 : minNormal f ≤ |rnd f (x / t)| := by
      rw [abs_rnd]
      refine (minNormal_le' f).trans (le_trans (by norm_num) (le_rnd_of_rep (rep_inv_pow2 (f := f) (k := 120) (by norm_num)) z0))
    refine ⟨_, θ, i3, ?_, h2, h3, z2, Or.inr z3⟩
    rw [h1, er]
    push_cast
    rw [eD]
    have hDn : (a:ℝ) - (x:ℝ) ^ 2 * (1 + ε) ≠ 0 := by
      intro h0; rw [h0, abs_zero] at hD; linarith
    have hδn : 1 + δ₂ ≠ 0 := by linarith [(abs_le.1 (hδ₂.trans hu)).1]
    field_simp

theorem rnd_one_sub {q : ℚ} (hf : f.exact = false) (h0 : 0 ≤ q) (h1 : q ≤ 1 / 2 ^ 66) : rnd f (1 - q) = 1 := by
  have rone : Rep f 1 := by have := rep_pow2_nat (f := f) (n := 0); simpa using this
  have rhalf : Rep f (1 / 2) := by have := rep_inv_pow2 (f := f) (k := 1) (by norm_num); simpa using this
  have q2 : q ≤ 1 / 4 := h1.trans (by norm_num)
  have hle : rnd f (1 - q) ≤ 1 := rnd_le_of_rep rone (by linarith)
  have hge : 1 / 2 ≤ rnd f (1 - q) := le_rnd_of_rep rhalf (by linarith)
  rcases hle.eq_or_lt with h | h
  · exact h
  exfalso
  rcases eq_or_lt_of_le h0 with rfl | h0
  · rw [sub_zero, rone] at h; exact lt_irrefl _ h
  have hu := uro_ge' f
  have e := rnd_err_ulp (f := f) (1 - q) (by linarith)
  have hi : ilog2 (1 - q) = -1 := by
    apply ilog2_unique <;> rw [abs_of_pos (by linarith)] <;> norm_num [pow2_eq] <;> linarith
  have hfe : fexp f (1 - q) ≤ -f.prec := by
    unfold fexp; rw [hi]; have := emin_le_prec f; omega
  have h3 := pow2_le hfe
  have hd := rep_dist hf (a := 2) (b := 2 * rnd f (1 - q)) (by have := rep_pow2_nat (f := f) (n := 1); simpa using this)
    (rep_double (rep_rnd _ _)) (by norm_num) (by linarith) (by intro h5; linarith)
  rw [abs_of_pos (by linarith)] at hd
  have h4 := (abs_le.1 e).1
  have hu2 : uro f = pow2 (-f.prec) := rfl
  rw [← hu2] at h3
  norm_num only at h1 hu
  linarith

/-- for tiny arguments the continued fraction is exactly one -/
theorem tan_cf_tiny {xx : FV f} {b : ℚ} {N : ℕ} (hf : f.exact = false) (hb : Is xx b) (b0 : 0 ≤ b) (b1 : b ≤ 1 / 2 ^ 79)
    (hN : N ≤ 60) (hN2 : 2 ≤ N) : Is (tan_cf_recur xx 1 N) 1 := by
  have rone : Rep f 1 := by have := rep_pow2_nat (f := f) (n := 0); simpa using this
  have st : ∀ (d : ℕ) (a : ℚ), 1 ≤ d → d < N → Is (tan_cf_recur xx (d + 1) N) a → 1 ≤ a →
      ∃ q, 0 ≤ q ∧ q ≤ 1 / 2 ^ 79 ∧ Is (tan_cf_recur xx d N) (rnd f (2 * d - 1 - q)) := by
    intro d a hd hdN ha a1
    rw [tan_cf_unfold xx hdN]
    have q0 : 0 ≤ b / a := div_nonneg b0 (by linarith)
    have q1 : b / a ≤ 1 / 2 ^ 79 := (div_le_self b0 a1).trans b1
    have i1 := hb.div ha (by linarith) (nov (by rw [abs_of_nonneg q0]; exact q1.trans (by norm_num)))
    have q2 : rnd f (b / a) ≤ 1 / 2 ^ 79 := rnd_le_of_rep (rep_inv_pow2 (by norm_num)) q1
    have q3 : 0 ≤ rnd f (b / a) := rnd_nonneg q0
    have ii : Is (i (2 * (d : ℤ) - 1) : FV f) (2 * (d : ℚ) - 1) := by
      have := is_i (f := f) (n := 2 * (d : ℤ) - 1) (by rw [abs_le]; constructor <;> omega)
      push_cast at this; exact this
    have d1 : (1:ℚ) ≤ d := by exact_mod_cast hd
    have d2 : (d:ℚ) ≤ 60 := by exact_mod_cast (by omega : d ≤ 60)
    refine ⟨_, q3, q2, ii.sub i1 (nov ?_)⟩
    have : (1 / 2 ^ 79 : ℚ) ≤ 1 / 2 := by norm_num
    rw [abs_of_pos (by linarith)]
    refine le_trans ?_ (show (120:ℚ) ≤ 2 ^ 127 by norm_num)
    linarith
  have low : ∀ k, k + 2 ≤ N → ∃ a, Is (tan_cf_recur xx (N - k) N) a ∧ 1 ≤ a := by
    intro k
    induction k with
    | zero =>
      intro _
      have := is_i (f := f) (n := 2 * (N : ℤ) - 1) (by rw [abs_le]; constructor <;> omega)
      push_cast at this
      refine ⟨_, by rw [Nat.sub_zero, tan_cf_last]; exact this, ?_⟩
      have : (2:ℚ) ≤ N := by exact_mod_cast hN2
      linarith
    | succ k ih =>
      intro hk
      obtain ⟨a, ha, a1⟩ := ih (by omega)
      obtain ⟨q, q0, q1, h⟩ := st (N - (k + 1)) a (by omega) (by omega) (by rw [show N - (k + 1) + 1 = N - k by omega]; exact ha) a1
      refine ⟨_, h, le_rnd_of_rep rone ?_⟩
      have : (2:ℚ) ≤ ((N - (k + 1) : ℕ) : ℚ) := by exact_mod_cast (by omega : 2 ≤ N - (k + 1))
      have : (1 / 2 ^ 79 : ℚ) ≤ 1 / 2 := by norm_num
      linarith
  obtain ⟨a, ha, a1⟩ := low (N - 2) (by omega)
  rw [show N - (N - 2) = 1 + 1 by omega] at ha
  obtain ⟨q, q0, q1, h⟩ := st 1 a le_rfl (by omega) ha a1
  have e : rnd f (2 * ((1:ℕ):ℚ) - 1 - q) = 1 := by
    norm_num
    exact rnd_one_sub hf q0 (q1.trans (by norm_num))
  rwa [e] at h

/-- a tiny argument is returned unchanged -/
theorem tan_quot_tiny {v : FV f} {x : ℚ} {N : ℕ} (hf : f.exact = false) (hv : Is v x) (hr : Rep f x) (x0 : 0 ≤ x) (x1 : x ≤ 1 / 2 ^ 40)
    (hN : N ≤ 60) (hN2 : 2 ≤ N) : Is (v / tan_cf_recur (v * v) 1 N) x := by
  have s0 : 0 ≤ x * x := mul_nonneg x0 x0
  have s1 : x * x ≤ 1 / 2 ^ 80 := (mul_le_mul x1 x1 x0 (by norm_num)).trans (by norm_num)
  have ib := hv.mul hv (nov (by rw [abs_of_nonneg s0]; exact s1.trans (by norm_num)))
  have b1 : rnd f (x * x) ≤ 1 / 2 ^ 79 := (rnd_le_of_rep (rep_inv_pow2 (f := f) (k := 80) (by norm_num)) s1).trans (by norm_num)
  have h := tan_cf_tiny hf ib (rnd_nonneg s0) b1 hN hN2
  have o : overflows f (rnd f (x / 1)) = false := nov (by rw [div_one, abs_of_nonneg x0]; exact x1.trans (by norm_num))
  have := hv.div h (by norm_num) o
  rwa [div_one, hr] at this

end Gcem
