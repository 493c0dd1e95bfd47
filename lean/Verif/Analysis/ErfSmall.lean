import Verif.Analysis.ErfSeries
import Verif.Analysis.LogCf
import Verif.Model.Special
import Mathlib.Algebra.Order.Floor.Ring

/-!
# Rounding and truncation errors of the continued fraction of `erf` near zero

The computed tails are compared with the exact tails `erT d s`, `s = x^2`.  `erEv X u m` computes, for the tail number
`60 - m`, rational bounds of `erT (60-m) X` and a bound of the relative error for all `s ≤ X`.
-/

namespace Gcem
open FV
variable {f : Fmt}

/-- one step in exact real numbers -/
theorem erf_step_real {D s X u b N v A' S Q T T' lo lo' e : ℝ} (hD : 1 ≤ D) (hs : 0 ≤ s) (hsX : s ≤ X) (hX : 1 / 8 ≤ X)
    (hu : 0 < u) (hu1 : u ≤ 1 / 10000000) (hT : T = 2 * D - 1 - 2 * s + 4 * D * s / T') (l0 : 0 < lo) (lT : lo ≤ T)
    (l0' : 0 < lo') (lT' : lo' ≤ T') (e0 : 0 ≤ e) (e1 : e ≤ 1 / 2)
    (hb : |b - s| ≤ 1001 / 1000 * u * X) (hN : |N - 4 * D * b| ≤ u * |4 * D * b| + u / 1000)
    (hv : |v - T'| ≤ e * T') (hQ : |Q - N / v| ≤ u * |N / v| + u / 1000)
    (hA : |A' - (2 * D - 1 - 2 * b)| ≤ u * |2 * D - 1 - 2 * b|)
    (hS : |S - (A' + Q)| ≤ u * |A' + Q|) {p M al r g : ℝ} (hp : p = 4 * D * X / (lo * lo'))
    (hM : 2 * D - 1 ≤ M) (hM' : 2 * X ≤ M)
    (hal : al = (21 / 10 * X + 11 / 10 * M) * u) (hr : r = p * (21 / 10 * u + e) / (1 - e))
    (hg : g = al / lo + r * (1 + u) + u * p) :
    |S - T| ≤ (g + u * (1 + g)) * T := by
  have Tp : 0 < T := by linarith
  have Tp' : 0 < T' := by linarith
  have Xp : 0 < X := by linarith
  have p0 : 0 < p := by rw [hp]; positivity
  have h1e : 0 < 1 - e := by linarith
  have r0 : 0 ≤ r := by rw [hr]; positivity
  -- bounds of the quotient
  have hPX : 4 * D * X / T' ≤ p * T := by
    rw [hp, div_mul_eq_mul_div, div_le_div_iff₀ Tp' (by positivity)]
    have : lo * lo' ≤ T * T' := mul_le_mul lT lT' l0'.le Tp.le
    have := mul_le_mul_of_nonneg_left this (show 0 ≤ 4 * D * X by positivity)
    linarith
  have hP : 4 * D * s / T' ≤ p * T := by
    refine le_trans ?_ hPX
    gcongr
  have P0 : 0 ≤ 4 * D * s / T' := by positivity
  have hb' := abs_le.1 hb
  have uX : 0 < u * X := by positivity
  have hbX : |b| ≤ X * (1 + 1001 / 1000 * u) := by rw [abs_le]; constructor <;> nlinarith
  have hN' : |N - 4 * D * s| ≤ 4 * D * X * (21 / 10 * u) := by
    have e1 : N - 4 * D * s = (N - 4 * D * b) + 4 * D * (b - s) := by ring
    rw [e1]
    refine (abs_add_le _ _).trans ?_
    rw [abs_mul, abs_of_pos (show 0 < 4 * D by linarith)]
    rw [abs_mul, abs_of_pos (show 0 < 4 * D by linarith)] at hN
    have k1 : 4 * D * |b - s| ≤ 4 * D * (1001 / 1000 * u * X) := mul_le_mul_of_nonneg_left hb (by linarith)
    have k2 : u * (4 * D * |b|) ≤ u * (4 * D * (X * (1 + 1001 / 1000 * u))) := by gcongr
    have k3 : u / 1000 ≤ D * (u * X) * (1 / 100) := by
      have : 1 * (u * (1 / 8)) ≤ D * (u * X) := mul_le_mul hD (mul_le_mul_of_nonneg_left hX hu.le) (by positivity) (by linarith)
      linarith
    have k4 : D * (u * X) * u ≤ D * (u * X) * (1 / 10000000) := mul_le_mul_of_nonneg_left hu1 (by positivity)
    have e2 : u * (4 * D * (X * (1 + 1001 / 1000 * u))) = 4 * (D * (u * X)) + 4004 / 1000 * (D * (u * X) * u) := by ring
    have e3 : 4 * D * (1001 / 1000 * u * X) = 4004 / 1000 * (D * (u * X)) := by ring
    have e4 : 4 * D * X * (21 / 10 * u) = 84 / 10 * (D * (u * X)) := by ring
    have : 0 < D * (u * X) := by positivity
    rw [e4]; rw [e2] at k2; rw [e3] at k1
    linarith
  have hv' := abs_le.1 hv
  have vge : (1 - e) * T' ≤ v := by linarith
  have vp : 0 < v := lt_of_lt_of_le (by positivity) vge
  have hq : |N / v - 4 * D * s / T'| ≤ r * T := by
    have e1 : N / v - 4 * D * s / T' = (N - 4 * D * s) / v + 4 * D * s / T' * ((T' - v) / v) := by
      field_simp; ring
    rw [e1]
    refine (abs_add_le _ _).trans ?_
    have k1 : |(N - 4 * D * s) / v| ≤ p * T * (21 / 10 * u) / (1 - e) := by
      rw [abs_div, abs_of_pos vp, div_le_div_iff₀ vp h1e]
      calc |N - 4 * D * s| * (1 - e) ≤ 4 * D * X * (21 / 10 * u) * (1 - e) := mul_le_mul_of_nonneg_right hN' h1e.le
        _ = (4 * D * X / T') * (21 / 10 * u) * ((1 - e) * T') := by field_simp
        _ ≤ p * T * (21 / 10 * u) * v := by gcongr
    have k2 : |4 * D * s / T' * ((T' - v) / v)| ≤ p * T * e / (1 - e) := by
      rw [abs_mul, abs_of_nonneg P0, abs_div, abs_of_pos vp, abs_sub_comm, mul_div_assoc (p * T) e]
      refine mul_le_mul hP ?_ (by positivity) (by positivity)
      rw [div_le_div_iff₀ vp h1e]
      calc |v - T'| * (1 - e) ≤ e * T' * (1 - e) := mul_le_mul_of_nonneg_right hv h1e.le
        _ = e * ((1 - e) * T') := by ring
        _ ≤ e * v := mul_le_mul_of_nonneg_left vge e0
    refine (add_le_add k1 k2).trans (le_of_eq ?_)
    rw [hr]; ring
  have hNv : |N / v| ≤ (p + r) * T := by
    have := abs_sub_abs_le_abs_sub (N / v) (4 * D * s / T')
    rw [abs_of_nonneg P0] at this
    linarith
  have hQ' : |Q - 4 * D * s / T'| ≤ (r * (1 + u) + u * p) * T + u / 1000 := by
    have e1 : Q - 4 * D * s / T' = (Q - N / v) + (N / v - 4 * D * s / T') := by ring
    rw [e1]
    refine (abs_add_le _ _).trans ((add_le_add hQ hq).trans ?_)
    have := mul_le_mul_of_nonneg_left hNv hu.le
    linarith
  have M1 : 1 ≤ M := by linarith
  have hA' : |A' - (2 * D - 1 - 2 * s)| ≤ al - u / 1000 := by
    have e1 : A' - (2 * D - 1 - 2 * s) = (A' - (2 * D - 1 - 2 * b)) - 2 * (b - s) := by ring
    rw [e1]
    refine (abs_sub _ _).trans ?_
    rw [abs_mul, abs_two]
    have k1 : |2 * D - 1 - 2 * b| ≤ M + 2002 / 1000 * (u * X) := by rw [abs_le]; constructor <;> linarith
    have k2 := mul_le_mul_of_nonneg_left k1 hu.le
    have k3 : u * (u * X) ≤ 1 / 10000000 * (u * X) := mul_le_mul_of_nonneg_right hu1 uX.le
    have k4 : u * 1 ≤ u * M := mul_le_mul_of_nonneg_left M1 hu.le
    rw [hal]
    have e2 : (21 / 10 * X + 11 / 10 * M) * u = 21 / 10 * (u * X) + 11 / 10 * (u * M) := by ring
    rw [e2]
    have e3 : u * (M + 2002 / 1000 * (u * X)) = u * M + 2002 / 1000 * (u * (u * X)) := by ring
    rw [e3] at k2
    linarith
  have al0 : 0 ≤ al := by rw [hal]; positivity
  have hsum : |A' + Q - T| ≤ g * T := by
    have e1 : A' + Q - T = (A' - (2 * D - 1 - 2 * s)) + (Q - 4 * D * s / T') := by rw [hT]; ring
    rw [e1]
    refine (abs_add_le _ _).trans ((add_le_add hA' hQ').trans ?_)
    have k1 : al ≤ al / lo * T := by
      rw [div_mul_eq_mul_div, le_div_iff₀ l0]
      exact mul_le_mul_of_nonneg_left lT al0
    rw [hg]
    linarith
  have hAQ : |A' + Q| ≤ (1 + g) * T := by
    have := abs_sub_abs_le_abs_sub (A' + Q) T
    rw [abs_of_pos Tp] at this
    linarith
  have e1 : S - T = (S - (A' + Q)) + (A' + Q - T) := by ring
  rw [e1]
  refine (abs_add_le _ _).trans ((add_le_add hS hsum).trans ?_)
  have := mul_le_mul_of_nonneg_left hAQ hu.le
  linarith

/-! ## The computed bounds -/

/-- round up to a multiple of `2^-k` -/
def upTo (k : ℕ) (q : ℚ) : ℚ := (⌈q * 2 ^ k⌉ : ℤ) / 2 ^ k
/-- round down to a multiple of `2^-k` -/
def dnTo (k : ℕ) (q : ℚ) : ℚ := (⌊q * 2 ^ k⌋ : ℤ) / 2 ^ k

theorem le_upTo (k : ℕ) (q : ℚ) : q ≤ upTo k q := by
  unfold upTo; rw [le_div_iff₀ (by positivity)]; exact Int.le_ceil _
theorem dnTo_le (k : ℕ) (q : ℚ) : dnTo k q ≤ q := by
  unfold dnTo; rw [div_le_iff₀ (by positivity)]; exact Int.floor_le _

/-- the error bound of one step -/
def erErr (X u D lo lo' e : ℚ) : ℚ :=
  let p := 4 * D * X / (lo * lo')
  let g := (21 / 10 * X + 11 / 10 * max (2 * D - 1) (2 * X)) * u / lo + p * (21 / 10 * u + e) / (1 - e) * (1 + u) + u * p
  g + u * (1 + g)

/-- lower and upper bound of `erT (60-m) X` and error bound of the computed tail -/
def erEv (X u : ℚ) : ℕ → Option (ℚ × ℚ × ℚ)
  | 0 =>
    let lo := 119 - 2 * X
    let e := upTo 140 ((2 * X + 300 * u) / lo)
    if 1 / 1000 ≤ lo ∧ e ≤ 1 / 2 then some (lo, 119, e) else none
  | m + 1 =>
    match erEv X u m with
    | none => none
    | some (lo', hi', e') =>
      let D : ℚ := ((59 - m : ℕ) : ℚ)
      let lo := dnTo 64 (2 * D - 1 - 2 * X + 4 * D * X / hi')
      let hi := upTo 64 (2 * D - 1 - 2 * X + 4 * D * X / lo')
      let e := upTo 140 (erErr X u D lo lo' e')
      if 1 / 1000 ≤ lo ∧ e ≤ 1 / 2 then some (lo, hi, e) else none

/-- the value of the error bound after all steps is at most `K u` -/
def erOk (X u K : ℚ) : Bool :=
  match erEv X u 59 with
  | none => false
  | some (_, _, e) => decide (e ≤ K * u)

theorem erEv_zero {X u lo hi e : ℚ} (h : erEv X u 0 = some (lo, hi, e)) :
    lo = 119 - 2 * X ∧ hi = 119 ∧ e = upTo 140 ((2 * X + 300 * u) / lo) ∧ 1 / 1000 ≤ lo ∧ e ≤ 1 / 2 := by
  simp only [erEv] at h
  split_ifs at h with hc
  simp only [Option.some.injEq, Prod.mk.injEq] at h
  obtain ⟨rfl, rfl, rfl⟩ := h
  exact ⟨rfl, rfl, rfl, hc.1, hc.2⟩

theorem erEv_succ {X u lo hi e : ℚ} {m : ℕ} (h : erEv X u (m + 1) = some (lo, hi, e)) :
    ∃ lo' hi' e', erEv X u m = some (lo', hi', e') ∧
      lo = dnTo 64 (2 * ((59 - m : ℕ) : ℚ) - 1 - 2 * X + 4 * ((59 - m : ℕ) : ℚ) * X / hi') ∧
      hi = upTo 64 (2 * ((59 - m : ℕ) : ℚ) - 1 - 2 * X + 4 * ((59 - m : ℕ) : ℚ) * X / lo') ∧
      e = upTo 140 (erErr X u ((59 - m : ℕ) : ℚ) lo lo' e') ∧ 1 / 1000 ≤ lo ∧ e ≤ 1 / 2 := by
  rw [erEv] at h
  cases hm : erEv X u m with
  | none => rw [hm] at h; simp at h
  | some t =>
    obtain ⟨lo', hi', e'⟩ := t
    rw [hm] at h
    simp only at h
    split_ifs at h with hc
    simp only [Option.some.injEq, Prod.mk.injEq] at h
    obtain ⟨rfl, rfl, rfl⟩ := h
    exact ⟨lo', hi', e', rfl, rfl, rfl, rfl, hc.1, hc.2⟩

theorem erEv_spec {X u : ℚ} (hX : 0 ≤ X) : ∀ m : ℕ, m ≤ 59 → ∀ lo hi e : ℚ, erEv X u m = some (lo, hi, e) →
    1 / 1000 ≤ lo ∧ e ≤ 1 / 2 ∧ (lo : ℝ) ≤ erT (60 - m) X ∧ erT (60 - m) X ≤ (hi : ℝ) := by
  have hXr : (0:ℝ) ≤ X := by exact_mod_cast hX
  intro m
  induction m with
  | zero =>
    intro _ lo hi e h
    obtain ⟨h1, h2, -, h3, h4⟩ := erEv_zero h
    refine ⟨h3, h4, ?_, ?_⟩
    · have := erT_ge 60 (by norm_num) hXr
      rw [h1]; push_cast at this ⊢; norm_num at this ⊢; linarith
    · have := erT_le 60 (by norm_num) hXr
      rw [h2]; push_cast at this ⊢; norm_num at this ⊢; linarith
  | succ m ih =>
    intro hm lo hi e h
    obtain ⟨lo', hi', e', h0, h1, h2, -, h3, h4⟩ := erEv_succ h
    obtain ⟨a1, -, a3, a4⟩ := ih (by omega) lo' hi' e' h0
    have r := erT_rec (60 - (m + 1)) (by omega) hXr
    have ed : 60 - (m + 1) = 59 - m := by omega
    have ed2 : 59 - m + 1 = 60 - m := by omega
    rw [ed] at r ⊢
    rw [ed2] at r
    have l0 : (0:ℝ) < lo' := by
      have : (0:ℚ) < lo' := by linarith
      exact_mod_cast this
    have T0 : 0 < erT (60 - m) X := by linarith
    have hi0 : (0:ℝ) < hi' := by linarith
    have lo1 : lo ≤ 2 * ((59 - m : ℕ) : ℚ) - 1 - 2 * X + 4 * ((59 - m : ℕ) : ℚ) * X / hi' := by rw [h1]; exact dnTo_le _ _
    have hi1 : 2 * ((59 - m : ℕ) : ℚ) - 1 - 2 * X + 4 * ((59 - m : ℕ) : ℚ) * X / lo' ≤ hi := by rw [h2]; exact le_upTo _ _
    have lo2 := (Rat.cast_le (K := ℝ)).2 lo1
    have hi2 := (Rat.cast_le (K := ℝ)).2 hi1
    push_cast at lo2 hi2
    have n0 : (0:ℝ) ≤ 4 * ((59 - m : ℕ) : ℝ) * X := by positivity
    refine ⟨h3, h4, ?_, ?_⟩
    · rw [r]
      have := div_le_div_of_nonneg_left n0 T0 a4
      linarith
    · rw [r]
      have := div_le_div_of_nonneg_left n0 l0 a3
      linarith

theorem is_oddN {D : ℕ} (h : D ≤ 60) : Is (i (2 * (D : ℤ) - 1) : FV f) (2 * (D : ℚ) - 1) := by
  have := is_i (f := f) (n := 2 * (D : ℤ) - 1) (by rw [abs_le]; constructor <;> omega)
  push_cast at this; exact this

theorem erf_emin (f : Fmt) : pow2 f.emin / 2 ≤ uro f / 1000 := by
  rcases f with ⟨⟨⟩, ⟨⟩⟩ <;> decide +kernel

theorem erf_step_is {D : ℕ} {b a : ℚ} {s : ℝ} {xx v : FV f} {X lo lo' e' : ℚ} (hD : 1 ≤ D) (hD' : D ≤ 59)
    (hxx : Is xx b) (hbr : Rep f b) (hs : 0 ≤ s) (hsX : s ≤ X) (hX : 1 / 8 ≤ X) (hX' : X ≤ 10)
    (hb : |(b:ℝ) - s| ≤ 1001 / 1000 * uro f * X) (hv : Is v a)
    (lo1 : 1 / 1000 ≤ lo) (loT : (lo : ℝ) ≤ erT D X) (lo1' : 1 / 1000 ≤ lo') (loT' : (lo' : ℝ) ≤ erT (D + 1) X) (e1 : e' ≤ 1 / 2)
    (ha : |(a:ℝ) - erT (D + 1) s| ≤ e' * erT (D + 1) s) :
    ∃ c, Is (erf_cf_small_step xx D v) c ∧ |(c:ℝ) - erT D s| ≤ (erErr X (uro f) D lo lo' e' : ℚ) * erT D s := by
  have u0 := uro_pos_real f
  have u1 := uro_le f
  have em := erf_emin f
  have d1 : (1:ℝ) ≤ D := by exact_mod_cast hD
  have d2 : (D:ℝ) ≤ 59 := by exact_mod_cast hD'
  have d1q : (1:ℚ) ≤ D := by exact_mod_cast hD
  have d2q : (D:ℚ) ≤ 59 := by exact_mod_cast hD'
  have hXr : (1 / 8:ℝ) ≤ X := by have := (Rat.cast_le (K := ℝ)).2 hX; push_cast at this; exact this
  have hXr' : (X:ℝ) ≤ 10 := by have := (Rat.cast_le (K := ℝ)).2 hX'; push_cast at this; exact this
  have lor : (1 / 1000:ℝ) ≤ lo := by have := (Rat.cast_le (K := ℝ)).2 lo1; push_cast at this; exact this
  have lor' : (1 / 1000:ℝ) ≤ lo' := by have := (Rat.cast_le (K := ℝ)).2 lo1'; push_cast at this; exact this
  have e1r : (e':ℝ) ≤ 1 / 2 := by have := (Rat.cast_le (K := ℝ)).2 e1; push_cast at this; exact this
  have Ts := loT.trans (erT_anti D hD hs hsX)
  have Ts' := loT'.trans (erT_anti (D + 1) (by omega) hs hsX)
  have Tp' : 0 < erT (D + 1) s := by linarith
  have e0r : (0:ℝ) ≤ e' := by
    have := (abs_nonneg _).trans ha
    by_contra hc
    push Not at hc
    nlinarith
  have ha' := abs_le.1 ha
  have hage : (1 / 2000:ℝ) ≤ a := by nlinarith
  have hage' : 1 / 2000 ≤ a := by
    have : ((1 / 2000 : ℚ) : ℝ) ≤ a := by push_cast; exact hage
    exact_mod_cast this
  have hb' := abs_le.1 hb
  have uX : 1001 / 1000 * (uro f : ℝ) * X ≤ 1 := by nlinarith
  have b1 : |b| ≤ 11 := by
    have h1 : ((-11 : ℚ) : ℝ) ≤ b := by push_cast; linarith
    have h2 : (b:ℝ) ≤ ((11 : ℚ) : ℝ) := by push_cast; linarith
    rw [abs_le]; exact ⟨by exact_mod_cast h1, by exact_mod_cast h2⟩
  have b2 := abs_le.1 b1
  -- the operations
  have i2 : Is (i 2 * xx : FV f) (2 * b) := by
    have := (is_i (f := f) (n := 2) (by norm_num)).mul hxx (nov (by
      rw [abs_mul]; push_cast; norm_num; linarith))
    push_cast at this
    rwa [rep_double hbr] at this
  have iA := (is_oddN (f := f) (D := D) (by omega)).sub i2 (nov (by
    have : (2:ℚ) ^ 127 ≥ 1000 := by norm_num
    rw [abs_le]; constructor <;> linarith))
  have i4 : Is (i (4 * (D:ℤ)) : FV f) (4 * (D:ℚ)) := by
    have := is_i (f := f) (n := 4 * (D : ℤ)) (by rw [abs_le]; constructor <;> omega)
    push_cast at this; exact this
  have hN0 : |4 * (D:ℚ) * b| ≤ 4000 := by
    rw [abs_mul, abs_of_nonneg (by positivity)]
    nlinarith [abs_nonneg b]
  have iN := i4.mul hxx (nov (hN0.trans (by norm_num)))
  have hN1 := rnd_err_all (f := f) (4 * (D:ℚ) * b)
  have hN2 : |rnd f (4 * (D:ℚ) * b)| ≤ 4000 := by
    have r4 : Rep f 4000 := by have := rep_int (f := f) (n := 4000) (le_trans (by norm_num) (two_pow_prec f)); push_cast at this; exact this
    rw [abs_le] at hN0 ⊢
    constructor
    · have := le_rnd_of_rep r4.neg hN0.1; exact this
    · exact rnd_le_of_rep r4 hN0.2
  have hq0 : |rnd f (4 * (D:ℚ) * b) / a| ≤ 8000000 := by
    rw [abs_div, abs_of_pos (show 0 < a by linarith), div_le_iff₀ (by linarith)]
    linarith
  have iQ := iN.div hv (by linarith) (nov (hq0.trans (by norm_num)))
  have hQ1 := rnd_err_all (f := f) (rnd f (4 * (D:ℚ) * b) / a)
  have hQ2 : |rnd f (rnd f (4 * (D:ℚ) * b) / a)| ≤ 8000000 := by
    have r4 : Rep f 8000000 := by have := rep_int (f := f) (n := 8000000) (le_trans (by norm_num) (two_pow_prec f)); push_cast at this; exact this
    rw [abs_le] at hq0 ⊢
    constructor
    · have := le_rnd_of_rep r4.neg hq0.1; exact this
    · exact rnd_le_of_rep r4 hq0.2
  have rOdd : Rep f (2 * (D:ℚ) - 1) := by
    have := rep_int (f := f) (n := 2 * (D:ℤ) - 1) (le_trans (b := 2 ^ 24) (by rw [abs_le]; constructor <;> omega) (two_pow_prec f))
    push_cast at this; exact this
  have hA1 := rnd_sub_rel (f := f) rOdd (rep_double hbr)
  have hA2 : |rnd f (2 * (D:ℚ) - 1 - 2 * b)| ≤ 1000 := by
    have r4 : Rep f 1000 := by have := rep_int (f := f) (n := 1000) (le_trans (by norm_num) (two_pow_prec f)); push_cast at this; exact this
    rw [abs_le]
    constructor
    · exact le_rnd_of_rep r4.neg (by linarith)
    · exact rnd_le_of_rep r4 (by linarith)
  have iS := iA.add iQ (nov (by
    have := abs_add_le (rnd f (2 * (D:ℚ) - 1 - 2 * b)) (rnd f (rnd f (4 * (D:ℚ) * b) / a))
    refine this.trans ((add_le_add hA2 hQ2).trans (by norm_num))))
  have hS1 := rnd_add_rel (f := f) (rep_rnd f (2 * (D:ℚ) - 1 - 2 * b)) (rep_rnd f (rnd f (4 * (D:ℚ) * b) / a))
  refine ⟨_, iS, ?_⟩
  have cN := (Rat.cast_le (K := ℝ)).2 (hN1.trans (add_le_add_right em _))
  have cQ := (Rat.cast_le (K := ℝ)).2 (hQ1.trans (add_le_add_right em _))
  have cA := (Rat.cast_le (K := ℝ)).2 hA1
  have cS := (Rat.cast_le (K := ℝ)).2 hS1
  have hr := erT_rec D hD hs
  generalize rnd f (rnd f (2 * (D:ℚ) - 1 - 2 * b) + rnd f (rnd f (4 * (D:ℚ) * b) / a)) = S at *
  generalize rnd f (2 * (D:ℚ) - 1 - 2 * b) = A' at *
  generalize rnd f (rnd f (4 * (D:ℚ) * b) / a) = Q at *
  generalize rnd f (4 * (D:ℚ) * b) = N at *
  push_cast at cN cQ cA cS
  have fin := erf_step_real (M := max (2 * (D:ℝ) - 1) (2 * X)) d1 hs hsX hXr u0 (by linarith) hr (by linarith) Ts (by linarith) Ts' e0r e1r hb cN ha cQ cA cS
    rfl (le_max_left _ _) (le_max_right _ _) rfl rfl rfl
  refine fin.trans (le_of_eq ?_)
  unfold erErr
  push_cast
  rfl

/-- the computed continued fraction -/
theorem erf_small_cf {b : ℚ} {s : ℝ} {xx : FV f} {X K : ℚ} (hxx : Is xx b) (hbr : Rep f b)
    (hs : 0 ≤ s) (hsX : s ≤ X) (hX : 1 / 8 ≤ X) (hX' : X ≤ 10)
    (hb : |(b:ℝ) - s| ≤ 1001 / 1000 * uro f * X) (hok : erOk X (uro f) K = true) :
    ∃ c, Is (erf_cf_small_recur xx 1) c ∧ |(c:ℝ) - erT 1 s| ≤ K * uro f * erT 1 s := by
  have u0 := uro_pos_real f
  have u1 := uro_le f
  have hXr' : (X:ℝ) ≤ 10 := by have := (Rat.cast_le (K := ℝ)).2 hX'; push_cast at this; exact this
  have hXr : (1 / 8:ℝ) ≤ X := by have := (Rat.cast_le (K := ℝ)).2 hX; push_cast at this; exact this
  have key := whileDown_inv (erf_cf_small_step xx) 0
    (fun d v => d ≤ 59 ∧ ∀ lo hi e : ℚ, erEv X (uro f) (59 - d) = some (lo, hi, e) →
      ∃ c, Is v c ∧ |(c:ℝ) - erT (d + 1) s| ≤ e * erT (d + 1) s) ?_ 59
    (i (2 * (ERF_MAX_ITER : ℕ) - 1) - i 2 * xx) (by omega) ⟨le_rfl, ?_⟩
  · unfold erOk at hok
    cases hm : erEv X (uro f) 59 with
    | none => rw [hm] at hok; simp at hok
    | some t =>
      obtain ⟨lo, hi, e⟩ := t
      rw [hm] at hok
      simp only [decide_eq_true_eq] at hok
      obtain ⟨c, h1, h2⟩ := key.2 lo hi e hm
      refine ⟨c, h1, h2.trans ?_⟩
      have := (Rat.cast_le (K := ℝ)).2 hok
      push_cast at this
      exact mul_le_mul_of_nonneg_right this (erT_pos 1 le_rfl hs).le
  · rintro d v - ⟨hd, hv⟩
    refine ⟨by omega, fun lo hi e h => ?_⟩
    have e1 : 59 - d = (59 - (d + 1)) + 1 := by omega
    rw [e1] at h
    obtain ⟨lo', hi', e', h0, -, -, h3, h4, h5⟩ := erEv_succ h
    obtain ⟨a, a1, a2⟩ := hv lo' hi' e' h0
    obtain ⟨s1, s2, s3, -⟩ := erEv_spec (by linarith) _ (by omega) _ _ _ h0
    obtain ⟨-, -, t3, -⟩ := erEv_spec (by linarith) _ (by omega) _ _ _ h
    have ed : 60 - (59 - (d + 1)) = d + 1 + 1 := by omega
    have ed2 : 60 - (59 - (d + 1) + 1) = d + 1 := by omega
    have ed3 : 59 - (59 - (d + 1)) = d + 1 := by omega
    rw [ed] at s3
    rw [ed2] at t3
    rw [ed3] at h3
    obtain ⟨c, c1, c2⟩ := erf_step_is (D := d + 1) (by omega) (by omega) hxx hbr hs hsX hX hX' hb a1 h4 t3 s1 s3 s2 a2
    refine ⟨c, c1, c2.trans (mul_le_mul_of_nonneg_right ?_ (erT_pos (d + 1) (by omega) hs).le)⟩
    rw [h3]
    exact (Rat.cast_le (K := ℝ)).2 (le_upTo _ _)
  · intro lo hi e h
    rw [Nat.sub_self] at h
    obtain ⟨h1, h2, h3, h4, h5⟩ := erEv_zero h
    have hb' := abs_le.1 hb
    have uX : 1001 / 1000 * (uro f : ℝ) * X ≤ 1 := by nlinarith
    have b1 : |b| ≤ 11 := by
      have h1 : ((-11 : ℚ) : ℝ) ≤ b := by push_cast; linarith
      have h2 : (b:ℝ) ≤ ((11 : ℚ) : ℝ) := by push_cast; linarith
      rw [abs_le]; exact ⟨by exact_mod_cast h1, by exact_mod_cast h2⟩
    have b2 := abs_le.1 b1
    have i2 : Is (i 2 * xx : FV f) (2 * b) := by
      have := (is_i (f := f) (n := 2) (by norm_num)).mul hxx (nov (by
        rw [abs_mul]; push_cast; norm_num; linarith))
      push_cast at this
      rwa [rep_double hbr] at this
    have i9 : Is (i (2 * ((ERF_MAX_ITER : ℕ) : ℤ) - 1) : FV f) 119 := by
      have := is_i (f := f) (n := 119) (by norm_num)
      push_cast at this; exact this
    have iA := i9.sub i2 (nov (by
      have : (2:ℚ) ^ 127 ≥ 1000 := by norm_num
      rw [abs_le]; constructor <;> linarith))
    refine ⟨_, iA, ?_⟩
    have r9 : Rep f 119 := by have := rep_int (f := f) (n := 119) (le_trans (by norm_num) (two_pow_prec f)); push_cast at this; exact this
    have cA := (Rat.cast_le (K := ℝ)).2 (rnd_sub_rel (f := f) r9 (rep_double hbr))
    generalize rnd f (119 - 2 * b) = S at *
    push_cast at cA
    have T1 := erT_ge (59 + 1) (by norm_num) hs
    have T2 := erT_le (59 + 1) (by norm_num) hs
    have T3 := erT_ge (59 + 1) (by norm_num) (hs.trans hsX)
    have T4 := erT_anti (59 + 1) (by norm_num) hs hsX
    push_cast at T1 T2 T3
    norm_num at T1 T2 T3
    have lor : (lo:ℝ) = 119 - 2 * X := by rw [h1]; push_cast; rfl
    have lo4 : (1 / 1000:ℝ) ≤ lo := by have := (Rat.cast_le (K := ℝ)).2 h4; push_cast at this; exact this
    have he : (2 * X + 300 * uro f : ℝ) / lo ≤ e := by
      have := (Rat.cast_le (K := ℝ)).2 (le_upTo 140 ((2 * X + 300 * uro f) / lo))
      rw [← h3] at this
      push_cast at this; exact this
    have he' : (2 * X + 300 * uro f : ℝ) ≤ e * erT (59 + 1) s := by
      rw [div_le_iff₀ (by linarith)] at he
      have e0 : (0:ℝ) ≤ e := by
        by_contra hc
        push Not at hc
        nlinarith
      refine he.trans (mul_le_mul_of_nonneg_left (by linarith) e0)
    refine le_trans ?_ he'
    have k1 : |119 - 2 * (b:ℝ)| ≤ 150 := by rw [abs_le]; constructor <;> linarith
    have k2 := mul_le_mul_of_nonneg_left k1 u0.le
    have cA' := abs_le.1 (cA.trans k2)
    have k3 : (uro f : ℝ) * X ≤ uro f * 10 := mul_le_mul_of_nonneg_left hXr' u0.le
    rw [abs_le]
    constructor <;> linarith

theorem uro_cases (hf : f.exact = false) : uro f = 1 / 2 ^ 24 ∨ uro f = 1 / 2 ^ 53 ∨ uro f = 1 / 2 ^ 64 := by
  obtain ⟨ty, ex⟩ := f
  cases (show ex = false from hf)
  cases ty <;> decide +kernel

set_option maxRecDepth 100000 in
theorem erOk_half (hf : f.exact = false) : erOk (1 / 4) (uro f) (11 / 2) = true := by
  rcases uro_cases hf with h | h | h <;> rw [h] <;> decide +kernel
set_option maxRecDepth 100000 in
theorem erOk_one (hf : f.exact = false) : erOk 1 (uro f) (443 / 10) = true := by
  rcases uro_cases hf with h | h | h <;> rw [h] <;> decide +kernel
set_option maxRecDepth 100000 in
theorem erOk_three_halves (hf : f.exact = false) : erOk (9 / 4) (uro f) 770 = true := by
  rcases uro_cases hf with h | h | h <;> rw [h] <;> decide +kernel
set_option maxRecDepth 100000 in
theorem erOk_all (hf : f.exact = false) : erOk (4411 / 1000) (uro f) 80000 = true := by
  rcases uro_cases hf with h | h | h <;> rw [h] <;> decide +kernel

end Gcem
