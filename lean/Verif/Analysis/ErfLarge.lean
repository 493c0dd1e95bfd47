import Verif.Analysis.ErfTail
import Verif.Analysis.ErfSmall
import Verif.Fp.Rel

/-!
# Rounding and truncation errors of the continued fraction of `erf` for large arguments

`ecB S m` bounds the exact tail number `100 - m`, divided by `2x`, for all `x` with `2 / (2x)^2 ≤ S`;
`ecH S w m` bounds the deviation of the computed tail number `60 - m` from the exact one, as a factor `1 + h`.
-/

namespace Gcem
open FV
variable {f : Fmt}

/-- lower and upper bounds of the tails -/
def ecB (S : ℚ) : ℕ → ℚ × ℚ
  | 0 => (1, 1 + 100 * S)
  | m + 1 => (dnTo 64 (1 + ((99 - m : ℕ) : ℚ) * S / (ecB S m).2), upTo 64 (1 + ((99 - m : ℕ) : ℚ) * S / (ecB S m).1))

/-- deviation factors -/
def ecH (S w : ℚ) : ℕ → ℚ
  | 0 => (ecB S 40).2 - 1
  | m + 1 => upTo 140 ((1 + (1 - 1 / (ecB S (41 + m)).2) * ecH S w m) * (1 + w) ^ 2 - 1)

theorem one_le_dnTo {k : ℕ} {q : ℚ} (h : 1 ≤ q) : 1 ≤ dnTo k q := by
  unfold dnTo
  rw [le_div_iff₀ (by positivity), one_mul]
  have : ((2 ^ k : ℤ) : ℚ) ≤ (⌊q * 2 ^ k⌋ : ℤ) := by
    exact_mod_cast Int.le_floor.2 (by push_cast; exact le_mul_of_one_le_left (by positivity) h)
  push_cast at this; exact this

theorem ecB_ge {S : ℚ} (hS : 0 ≤ S) (m : ℕ) : 1 ≤ (ecB S m).1 ∧ 1 ≤ (ecB S m).2 := by
  induction m with
  | zero => exact ⟨le_rfl, by simp only [ecB]; linarith⟩
  | succ m ih =>
    have h1 : 0 ≤ ((99 - m : ℕ) : ℚ) * S / (ecB S m).2 := div_nonneg (by positivity) (by linarith [ih.2])
    have h2 : 0 ≤ ((99 - m : ℕ) : ℚ) * S / (ecB S m).1 := div_nonneg (by positivity) (by linarith [ih.1])
    exact ⟨one_le_dnTo (by linarith), le_trans (by linarith) (le_upTo _ _)⟩

theorem ecB_spec {S : ℚ} {x : ℝ} (hx : 0 < x) (hS : 2 ≤ S * (2 * x) ^ 2) : ∀ m : ℕ, m ≤ 99 →
    ecR (100 - m) x ≤ (ecB S m).2 * (2 * x) ∧ 2 * (ecB S m).1 ≤ S * (2 * x) * ecR (100 - m) x := by
  have S0r : (0:ℝ) < S := by
    by_contra hc
    push Not at hc
    nlinarith [sq_nonneg (2 * x)]
  have S0 : (0:ℚ) ≤ S := by exact_mod_cast S0r.le
  set y := 2 * x with hy
  have yp : 0 < y := by linarith
  intro m
  induction m with
  | zero =>
    intro _
    have r := ecR_rec 100 (by norm_num) x
    have g := ecR_ge 101 (by norm_num) x
    have g' := ecR_ge 100 (by norm_num) x
    rw [← hy] at r g g'
    simp only [ecB, Nat.sub_zero]
    push_cast at r ⊢
    constructor
    · rw [r]
      have h1 : 2 * (100:ℝ) / ecR (100 + 1) x ≤ 2 * 100 / y := div_le_div_of_nonneg_left (by norm_num) yp g
      have h2 : 2 * (100:ℝ) / y ≤ 100 * S * y := by rw [div_le_iff₀ yp]; nlinarith
      linarith
    · have := mul_le_mul_of_nonneg_left g' (show 0 ≤ (S:ℝ) * y by positivity)
      nlinarith
  | succ m ih =>
    intro hm
    obtain ⟨i1, i2⟩ := ih (by omega)
    obtain ⟨b1, b2⟩ := ecB_ge S0 m
    have ed : 100 - (m + 1) = 99 - m := by omega
    have ed2 : 99 - m + 1 = 100 - m := by omega
    have r := ecR_rec (99 - m) (by omega) x
    rw [ed2, ← hy] at r
    rw [ed]
    have Rp := ecR_pos (100 - m) x
    have b1r : (1:ℝ) ≤ (ecB S m).1 := by exact_mod_cast b1
    have b2r : (1:ℝ) ≤ (ecB S m).2 := by exact_mod_cast b2
    have lo1 := (Rat.cast_le (K := ℝ)).2 (dnTo_le 64 (1 + ((99 - m : ℕ) : ℚ) * S / (ecB S m).2))
    have hi1 := (Rat.cast_le (K := ℝ)).2 (le_upTo 64 (1 + ((99 - m : ℕ) : ℚ) * S / (ecB S m).1))
    have e1 : (ecB S (m + 1)).1 = dnTo 64 (1 + ((99 - m : ℕ) : ℚ) * S / (ecB S m).2) := rfl
    have e2 : (ecB S (m + 1)).2 = upTo 64 (1 + ((99 - m : ℕ) : ℚ) * S / (ecB S m).1) := rfl
    rw [← e1] at lo1
    rw [← e2] at hi1
    push_cast at lo1 hi1
    generalize ((ecB S (m + 1)).1 : ℝ) = L at *
    generalize ((ecB S (m + 1)).2 : ℝ) = H at *
    generalize ((ecB S m).1 : ℝ) = L' at *
    generalize ((ecB S m).2 : ℝ) = H' at *
    generalize ecR (100 - m) x = R' at *
    have D0 : (0:ℝ) ≤ ((99 - m : ℕ) : ℝ) := Nat.cast_nonneg _
    generalize ((99 - m : ℕ) : ℝ) = D at *
    rw [r]
    constructor
    · have h1 : 2 * D / R' ≤ D * S / L' * y := by
        rw [div_le_iff₀ Rp, div_mul_eq_mul_div, div_mul_eq_mul_div, le_div_iff₀ (by linarith)]
        have := mul_le_mul_of_nonneg_left i2 D0
        linarith
      have := mul_le_mul_of_nonneg_right hi1 yp.le
      linarith
    · have h1 : 2 * (D * S / H') ≤ S * y * (2 * D / R') := by
        rw [mul_div_assoc', mul_div_assoc', div_le_div_iff₀ (by linarith) Rp]
        have := mul_le_mul_of_nonneg_left i1 (show 0 ≤ 2 * D * S by positivity)
        linarith
      have e3 : (S:ℝ) * y * (y + 2 * D / R') = S * y ^ 2 + S * y * (2 * D / R') := by ring
      rw [e3]
      linarith

/-- one computed step -/
theorem ec_step_is {D : ℕ} {y a : ℚ} {x : ℝ} {yv v : FV f} {h hi w : ℚ} (hD : 1 ≤ D) (hD' : D ≤ 59)
    (hyv : Is yv y) (hyr : Rep f y) (hy : (y:ℝ) = 2 * x) (y1 : 4 ≤ y) (y2 : y ≤ 2 ^ 35) (hv : Is v a) (ya : y ≤ a)
    (a2 : a ≤ 2 ^ 36) (hw : 101 / 100 * uro f = w) (h0 : 0 ≤ h) (hi1 : 1 ≤ hi) (hR : ecR D x ≤ hi * (2 * x))
    (k1 : (a:ℝ) ≤ (1 + h) * ecR (D + 1) x) (k2 : ecR (D + 1) x ≤ (1 + h) * a) :
    ∃ c, Is (erf_cf_large_step yv D v) c ∧ y ≤ c ∧ c ≤ 2 ^ 36 ∧
      (c:ℝ) ≤ ((1 + (1 - 1 / hi) * h) * (1 + w) ^ 2 : ℚ) * ecR D x ∧
      ecR D x ≤ ((1 + (1 - 1 / hi) * h) * (1 + w) ^ 2 : ℚ) * c := by
  have u0 := uro_pos f
  have u1 := uro_lt_half f
  have d1 : (1:ℚ) ≤ D := by exact_mod_cast hD
  have d2 : (D:ℚ) ≤ 59 := by exact_mod_cast hD'
  have a0 : 0 < a := by linarith
  have i2 : Is (i (2 * (D:ℤ)) : FV f) (2 * (D:ℚ)) := by
    have := is_i (f := f) (n := 2 * (D : ℤ)) (by rw [abs_le]; constructor <;> omega)
    push_cast at this; exact this
  have t0 : 0 < 2 * (D:ℚ) / a := by positivity
  have t1 : 2 * (D:ℚ) / a ≤ 30 := by rw [div_le_iff₀ a0]; linarith
  have t2 : 1 / 2 ^ 36 ≤ 2 * (D:ℚ) / a := by
    rw [div_le_div_iff₀ (by positivity) a0]; linarith
  have iQ := i2.div hv a0.ne' (nov (by rw [abs_of_pos t0]; exact t1.trans (by norm_num)))
  have hQ := rnd_err_rel (f := f) (q := 2 * (D:ℚ) / a) (by
    rw [abs_of_pos t0]
    exact (minNormal_le' f).trans (le_trans (by norm_num) t2))
  rw [abs_of_pos t0] at hQ
  have Q0 : 0 < rnd f (2 * (D:ℚ) / a) := by
    have := (abs_le.1 hQ).1; nlinarith
  have Q1 : rnd f (2 * (D:ℚ) / a) ≤ 32 := by
    have := rnd_le_of_rep (f := f) (r := 32) (by have := rep_pow2_nat (f := f) (n := 5); norm_num at this; exact this) (q := 2 * (D:ℚ) / a) (by linarith)
    exact this
  have z1 : y + rnd f (2 * (D:ℚ) / a) ≤ 2 ^ 36 := by
    have : (2:ℚ) ^ 36 = 2 ^ 35 + 2 ^ 35 := by norm_num
    have : (2:ℚ) ^ 35 ≥ 32 := by norm_num
    linarith
  have iS := hyv.add iQ (nov (by rw [abs_of_pos (by linarith)]; exact z1.trans (by norm_num)))
  have hS := rnd_err_rel (f := f) (q := y + rnd f (2 * (D:ℚ) / a)) (by
    rw [abs_of_pos (by linarith)]
    have : (1 / 2 ^ 125 : ℚ) ≤ 1 := by norm_num
    have := minNormal_le' f
    linarith)
  rw [abs_of_pos (show 0 < y + rnd f (2 * (D:ℚ) / a) by linarith)] at hS
  have c1 : y ≤ rnd f (y + rnd f (2 * (D:ℚ) / a)) := le_rnd_of_rep hyr (by linarith)
  have c2 : rnd f (y + rnd f (2 * (D:ℚ) / a)) ≤ 2 ^ 36 := rnd_le_of_rep rep_pow2_nat z1
  refine ⟨_, iS, c1, c2, ?_⟩
  clear iS iQ
  generalize hc : rnd f (y + rnd f (2 * (D:ℚ) / a)) = c at *
  generalize hq : rnd f (2 * (D:ℚ) / a) = Q at *
  generalize hu : uro f = u at *
  have w0 : 0 < w := by linarith
  have w1 : u ≤ (1 - u) * w := by rw [← hw]; nlinarith
  -- factors
  have fac : ∀ {p t : ℚ}, 0 < t → |p - t| ≤ u * t → p ≤ (1 + w) * t ∧ t ≤ (1 + w) * p := by
    intro p t ht h
    have h' := abs_le.1 h
    constructor
    · nlinarith
    · have : (1 + w) * ((1 - u) * t) ≤ (1 + w) * p := mul_le_mul_of_nonneg_left (by linarith) (by linarith)
      refine le_trans ?_ this
      have : 0 ≤ (w * (1 - u) - u) * t := mul_nonneg (by linarith) ht.le
      nlinarith
  obtain ⟨f1, f2⟩ := fac t0 hQ
  obtain ⟨f3, f4⟩ := fac (by linarith) hS
  have f5 : y + Q ≤ (1 + w) * (y + 2 * D / a) := by nlinarith
  have f6 : y + 2 * D / a ≤ (1 + w) * (y + Q) := by nlinarith
  have g1 : c ≤ (1 + w) ^ 2 * (y + 2 * D / a) := by
    refine f3.trans ((mul_le_mul_of_nonneg_left f5 (by linarith)).trans (le_of_eq (by ring)))
  have g2 : y + 2 * D / a ≤ (1 + w) ^ 2 * c := by
    refine f6.trans ((mul_le_mul_of_nonneg_left f4 (by linarith)).trans (le_of_eq (by ring)))
  have g1r := (Rat.cast_le (K := ℝ)).2 g1
  have g2r := (Rat.cast_le (K := ℝ)).2 g2
  push_cast at g1r g2r
  have xp : (0:ℝ) < 2 * x := by rw [← hy]; exact_mod_cast (show 0 < y by linarith)
  have Rp' := ecR_pos (D + 1) x
  have Rp := ecR_pos D x
  have r := ecR_rec D hD x
  have a0r : (0:ℝ) < a := by exact_mod_cast a0
  have d0 : (0:ℝ) < 2 * D := by
    have : (1:ℝ) ≤ D := by exact_mod_cast hD
    linarith
  have h0r : (0:ℝ) ≤ h := by exact_mod_cast h0
  have hi1r : (1:ℝ) ≤ hi := by exact_mod_cast hi1
  have P0 : 0 < 2 * (D:ℝ) / ecR (D + 1) x := by positivity
  have st := ec_step (y := 2 * x) (P := 2 * (D:ℝ) / ecR (D + 1) x) (R := ecR D x) (κ := 1 + h) (θ := 1 - 1 / hi)
    (M := 2 * x + 2 * (D:ℝ) / a) xp P0 r (by
      have : 1 / (hi:ℝ) * ecR D x ≤ 2 * x := by
        rw [div_mul_eq_mul_div, one_mul, div_le_iff₀ (by linarith), mul_comm]; exact hR
      linarith) (by linarith) (by
      have : 2 * (D:ℝ) / a ≤ (1 + h) * (2 * D / ecR (D + 1) x) := by
        rw [mul_div_assoc', div_le_div_iff₀ a0r Rp']
        have := mul_le_mul_of_nonneg_left k2 d0.le
        linarith
      linarith) (by
      have : 2 * (D:ℝ) / ecR (D + 1) x / (1 + h) ≤ 2 * D / a := by
        rw [div_div, div_le_div_iff₀ (by positivity) a0r]
        have := mul_le_mul_of_nonneg_left k1 d0.le
        linarith
      linarith)
  rw [← hy, add_sub_cancel_left] at st
  have w0r : (0:ℝ) < w := by exact_mod_cast w0
  have θ0 : 0 ≤ 1 + (1 - 1 / (hi:ℝ)) * h := by
    have : 1 / (hi:ℝ) ≤ 1 := by rw [div_le_one (by linarith)]; exact hi1r
    have := mul_nonneg (sub_nonneg.2 this) h0r
    linarith
  push_cast
  constructor
  · refine g1r.trans ((mul_le_mul_of_nonneg_left st.1 (by positivity)).trans (le_of_eq (by ring)))
  · refine st.2.trans ((mul_le_mul_of_nonneg_left g2r θ0).trans (le_of_eq (by ring)))

theorem ecH_nonneg {S w : ℚ} (hS : 0 ≤ S) (hw : 0 ≤ w) (m : ℕ) : 0 ≤ ecH S w m := by
  induction m with
  | zero => have := (ecB_ge hS 40).2; simp only [ecH]; linarith
  | succ m ih =>
    refine le_trans ?_ (le_upTo _ _)
    have h1 := (ecB_ge hS (41 + m)).2
    have h2 : 1 / (ecB S (41 + m)).2 ≤ 1 := by rw [div_le_one (by linarith)]; exact h1
    have h3 := mul_nonneg (sub_nonneg.2 h2) ih
    have h4 : 1 ≤ (1 + w) ^ 2 := by nlinarith
    nlinarith

/-- the computed continued fraction -/
theorem erf_large_cf {y : ℚ} {x : ℝ} {yv : FV f} {S w h : ℚ} (hyv : Is yv y) (hyr : Rep f y) (hy : (y:ℝ) = 2 * x)
    (y1 : 4 ≤ y) (y2 : y ≤ 2 ^ 35) (hS : 2 ≤ S * y ^ 2) (hw : 101 / 100 * uro f = w) (hh : ecH S w 59 ≤ h) :
    ∃ c, Is (erf_cf_large_recur yv 1) c ∧ y ≤ c ∧ |(c:ℝ) - ecR 1 x| ≤ h * ecR 1 x := by
  have xp : (0:ℝ) < x := by
    have : (0:ℝ) < y := by exact_mod_cast (show 0 < y by linarith)
    linarith
  have S0 : 0 ≤ S := by
    by_contra hc
    push Not at hc
    nlinarith [sq_nonneg y]
  have w0 : 0 ≤ w := by have := uro_pos f; linarith
  have hSr : (2:ℝ) ≤ S * (2 * x) ^ 2 := by
    have := (Rat.cast_le (K := ℝ)).2 hS
    push_cast at this
    rw [hy] at this; exact this
  have key := whileDown_inv (erf_cf_large_step yv) 0
    (fun d v => d ≤ 59 ∧ ∃ c, Is v c ∧ y ≤ c ∧ c ≤ 2 ^ 36 ∧
      (c:ℝ) ≤ (1 + (ecH S w (59 - d) : ℚ)) * ecR (d + 1) x ∧ ecR (d + 1) x ≤ (1 + (ecH S w (59 - d) : ℚ)) * c) ?_ 59
    yv (by omega) ⟨le_rfl, ?_⟩
  · obtain ⟨-, c, h1, h2, -, h3, h4⟩ := key
    refine ⟨c, h1, h2, ?_⟩
    have Rp := ecR_pos 1 x
    have hhr := (Rat.cast_le (K := ℝ)).2 hh
    have h0 : (0:ℝ) ≤ (ecH S w 59 : ℚ) := by exact_mod_cast ecH_nonneg S0 w0 59
    simp only [Nat.sub_zero, zero_add] at h3 h4
    generalize ((ecH S w 59 : ℚ) : ℝ) = H at *
    have hHR := mul_le_mul_of_nonneg_right hhr Rp.le
    rw [abs_le]
    refine ⟨?_, by linarith⟩
    have : ecR 1 x - c ≤ H * ecR 1 x := by
      have : (1 - H) * ecR 1 x ≤ c := by
        rcases le_or_gt 1 H with hc | hc
        · have : (0:ℝ) ≤ c := by
            have : 0 ≤ c := by linarith
            exact_mod_cast this
          nlinarith
        · have := mul_le_mul_of_nonneg_left h4 (show 0 ≤ 1 - H by linarith)
          have c0 : (0:ℝ) ≤ c := by
            have : 0 ≤ c := by linarith
            exact_mod_cast this
          nlinarith [mul_nonneg (sq_nonneg H) c0]
      linarith
    linarith
  · rintro d v - ⟨hd, a, a1, a2, a3, a4, a5⟩
    refine ⟨by omega, ?_⟩
    obtain ⟨hR, -⟩ := ecB_spec xp hSr (41 + (59 - (d + 1))) (by omega)
    have ed : 100 - (41 + (59 - (d + 1))) = d + 1 := by omega
    rw [ed] at hR
    obtain ⟨c, c1, c2, c3, c4, c5⟩ := ec_step_is (D := d + 1) (by omega) (by omega) hyv hyr hy y1 y2 a1 a2 a3 hw
      (ecH_nonneg S0 w0 _) (ecB_ge S0 _).2 hR a4 a5
    have e1 : 59 - d = (59 - (d + 1)) + 1 := by omega
    have hu := le_upTo 140 ((1 + (1 - 1 / (ecB S (41 + (59 - (d + 1)))).2) * ecH S w (59 - (d + 1))) * (1 + w) ^ 2 - 1)
    have e2 : ecH S w (59 - d) = upTo 140 ((1 + (1 - 1 / (ecB S (41 + (59 - (d + 1)))).2) * ecH S w (59 - (d + 1))) * (1 + w) ^ 2 - 1) := by
      rw [e1]; rfl
    rw [← e2] at hu
    have hu' : (1 + (1 - 1 / (ecB S (41 + (59 - (d + 1)))).2) * ecH S w (59 - (d + 1))) * (1 + w) ^ 2 ≤ 1 + ecH S w (59 - d) := by linarith
    have hur := (Rat.cast_le (K := ℝ)).2 hu'
    rw [Rat.cast_add 1, Rat.cast_one] at hur
    have c0 : (0:ℝ) ≤ c := by
      have : 0 ≤ c := by linarith
      exact_mod_cast this
    exact ⟨c, c1, c2, c3, c4.trans (mul_le_mul_of_nonneg_right hur (ecR_pos _ x).le),
      c5.trans (mul_le_mul_of_nonneg_right hur c0)⟩
  · refine ⟨y, hyv, le_rfl, y2.trans (by norm_num), ?_, ?_⟩
    · rw [hy]
      refine (ecR_ge (59 + 1) (by norm_num) x).trans (le_mul_of_one_le_left (ecR_pos _ x).le ?_)
      have : (0:ℝ) ≤ (ecH S w (59 - 59) : ℚ) := by exact_mod_cast ecH_nonneg S0 w0 (59 - 59)
      linarith
    · obtain ⟨hR, -⟩ := ecB_spec xp hSr 40 (by norm_num)
      refine hR.trans (le_of_eq ?_)
      rw [hy]
      simp only [Nat.sub_self, ecH]
      push_cast
      ring

set_option maxRecDepth 100000 in
theorem ecH_ok (hf : f.exact = false) : ecH (567 / 5000) (101 / 100 * uro f) 59 ≤ 5 / 2 * uro f + 9 / 10 ^ 18 := by
  rcases uro_cases hf with h | h | h <;> rw [h] <;> decide +kernel

end Gcem
