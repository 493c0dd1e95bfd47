import Verif.Props.Exp
import Verif.Analysis.LogSplit
import Mathlib.Analysis.SpecialFunctions.Log.Basic
import Mathlib.Analysis.Complex.ExponentialBounds

/-!
# C35, C36, C38, C40 (and the special values of C34, C39): logarithms and real powers
-/

namespace Gcem.Props
open Gcem FV
variable {f : Fmt}

/-! ## branches of `log` -/

theorem log_neg {x : FV f} (h : x < i 0) : log x = .ok nan := by
  unfold log log_check
  split
  · rfl
  · rfl

theorem log_tiny {q : ℚ} {z : Bool} (h0 : 0 ≤ q) (h : q < minNormal f) : log (fin q z : FV f) = .ok (inf true) := by
  unfold log log_check
  rw [if_neg (by simp), if_neg (by rw [i_zero, fin_lt]; linarith), if_pos]
  · rfl
  · rw [gt_iff]; unfold limMin; rw [fin_lt]; exact h

theorem log_one {z : Bool} : log (fin 1 z : FV f) = .ok (fin 0 false) := by
  have h := minNormal_lt_one f
  have h0 := minNormal_pos f
  unfold log log_check
  rw [if_neg (by simp), if_neg (by rw [i_zero, fin_lt]; norm_num), if_neg, if_pos, i_zero]
  · rw [i_one, fin_sub, sub_self, mk_zero, limMin_gt_fabs, abs_zero]; exact h0
  · rw [gt_iff]; unfold limMin; rw [fin_lt]; linarith

theorem log_posinf : log (inf false : FV f) = .ok (inf false) := by
  have e : (inf false : FV f) - i 1 = inf false := by rw [i_one]; rfl
  unfold log log_check
  rw [if_neg (by simp), if_neg (by simp), if_neg, if_neg, if_pos]
  · rfl
  · simp [limInf]
  · rw [e]; simp [limMin]
  · simp [limMin]

/-- `log` of a normal positive value other than one. -/
theorem log_normal {q : ℚ} {z : Bool} (h : minNormal f ≤ q)
    (h1 : ¬ (limMin : FV f) > fabs ((fin q z : FV f) - i 1)) :
    log (fin q z : FV f) = if q < 1/2 ∨ 3/2 < q then log_breakup (fin q z) else .ok (log_main (fin q z)) := by
  have h0 := minNormal_pos f
  have hd15 : Is (d 1.5 : FV f) (3/2) := by
    have := is_d_scaled (f := f) (q := 1.5) 3 (-1) (by norm_num [pow2_eq]) (by decide) (by decide) (by norm_num)
    convert this using 1; norm_num
  unfold log log_check
  rw [if_neg (by simp), if_neg (by rw [i_zero, fin_lt]; linarith), if_neg, if_neg h1, if_neg (by simp [limInf])]
  · have hq := is_fin (f := f) q z
    have e : ((fin q z : FV f) < d 0.5 ∨ (fin q z : FV f) > d 1.5) ↔ (q < 1/2 ∨ 3/2 < q) := by
      rw [hq.lt_iff is_d_half, gt_iff, hd15.lt_iff hq]
    by_cases hc : q < 1/2 ∨ 3/2 < q
    · rw [if_pos hc, if_pos (e.2 hc)]
    · rw [if_neg hc, if_neg (fun h => hc (e.1 h))]
  · rw [gt_iff]; unfold limMin; rw [fin_lt]; linarith

theorem log_near_one {q : ℚ} {z : Bool} (h : minNormal f ≤ q)
    (h1 : (limMin : FV f) > fabs ((fin q z : FV f) - i 1)) : log (fin q z : FV f) = .ok (fin 0 false) := by
  have h0 := minNormal_pos f
  unfold log log_check
  rw [if_neg (by simp), if_neg (by rw [i_zero, fin_lt]; linarith), if_neg, if_pos h1, i_zero]
  rw [gt_iff]; unfold limMin; rw [fin_lt]; linarith

theorem one_le_mul_pow {q : ℚ} (h : minNormal f ≤ q) : 1 ≤ q * 2 ^ 16382 := by
  have h1 : pow2 (-16382) ≤ q := by
    refine le_trans ?_ h
    exact pow2_le (by rcases f with ⟨⟨⟩, ⟨⟩⟩ <;> decide)
  rw [pow2_eq, zpow_neg, inv_eq_one_div, div_le_iff₀ (by positivity)] at h1
  exact_mod_cast h1

theorem le_mul_pow {q : ℚ} (hf : f.exact = false) (h0 : 0 ≤ q) (ho : overflows f q = false) :
    q ≤ 10 * 2 ^ 16384 := by
  have h1 := (lt_emax hf h0 ho).le
  have h2 : pow2 f.emax ≤ pow2 ((16384 : ℕ) : ℤ) := pow2_le (by rcases f with ⟨⟨⟩, ⟨⟩⟩ <;> decide)
  rw [pow2_nat] at h2
  have h3 : (0:ℚ) < 2 ^ 16384 := by positivity
  exact (h1.trans h2).trans (le_mul_of_one_le_left h3.le (by norm_num))

theorem toI32_digit {m : ℚ} {w : Bool} (h1 : 1 ≤ m) (h2 : m ≤ 10) :
    toI32 (fin m w : FV f) = .ok ⌊m⌋ ∧ 1 ≤ ⌊m⌋ ∧ ⌊m⌋ ≤ 10 := by
  have a : 1 ≤ ⌊m⌋ := Int.le_floor.2 (by simpa using h1)
  have b : ⌊m⌋ ≤ 10 := by
    have : (⌊m⌋ : ℚ) ≤ ((10 : ℤ) : ℚ) := (Int.floor_le m).trans (by simpa using h2)
    exact_mod_cast this
  refine ⟨?_, a, b⟩
  have hr : ratTrunc m = ⌊m⌋ := ratTrunc_of_nonneg (by linarith)
  unfold toI32
  rw [toInt_ok (by rw [hr]; constructor <;> norm_num <;> omega), hr]

/-- The breakup branch, in terms of a mantissa in `[1,10]` and an exponent. -/
theorem log_breakup_eq {q : ℚ} {z : Bool} {m : ℚ} {w : Bool} {k : ℤ}
    (hm : mantissa recFuel (fin q z : FV f) = .ok (fin m w)) (h1 : 1 ≤ m) (h2 : m ≤ 10)
    (hk : find_exponent recFuel (fin q z : FV f) 0 = .ok k) :
    log_breakup (fin q z : FV f) = .ok (log_main (fin m w / i ⌊m⌋) + L (log_mantissa_integer ⌊m⌋) + L LOG_10 * i k) := by
  unfold log_breakup
  rw [hm]
  unfold log_mantissa
  simp only [bind, Except.bind, (toI32_digit (f := f) (w := w) h1 h2).1, hk]

theorem recFuel_big : 16390 < recFuel := by unfold recFuel; norm_num

theorem split_total (hf : f.exact = false) {q : ℚ} {z : Bool} (hx : Valid (fin q z : FV f))
    (h : minNormal f ≤ q) :
    ∃ m w k, mantissa recFuel (fin q z : FV f) = .ok (fin m w) ∧ 1 ≤ m ∧ m ≤ 10 ∧
      find_exponent recFuel (fin q z : FV f) 0 = .ok k := by
  have hF := recFuel_big
  rcases le_or_gt 1 q with h1 | h1
  · obtain ⟨m, w, k, θ, a, b, c, e, -⟩ := split_down (f := f) 16384 q z recFuel recFuel 0 (by omega) (by omega) h1
      hx.novf (le_mul_pow hf (by linarith) hx.novf)
    exact ⟨m, w, _, a, c, e, b⟩
  · obtain ⟨m, w, k, θ, a, b, c, -⟩ := mantissa_up (f := f) 16382 q z recFuel (by omega) h (by linarith)
      (one_le_mul_pow h)
    obtain ⟨v, k', l, θ', a', -⟩ := find_exponent_up (f := f) 16382 q z recFuel 0 (by omega) h (by linarith)
      (one_le_mul_pow h)
    exact ⟨m, w, _, a, b, c, a'⟩

/-! ## C35 -/

/-- C35: special values.  Every value below the least positive normal value, including all positive
subnormals, gives `-inf`; every negative value (and `-inf`) gives NaN. -/
theorem C35_special :
    log (nan : FV f) = .ok nan ∧ log (inf false : FV f) = .ok (inf false) ∧
    log (fin 1 false : FV f) = .ok (fin 0 false) ∧
    (∀ x : FV f, x < fin 0 false → log x = .ok nan) ∧
    (∀ (q : ℚ) (z : Bool), 0 ≤ q → q < minNormal f → log (fin q z : FV f) = .ok (inf true)) := by
  refine ⟨by simp [log, log_check, limNaN], log_posinf, log_one, ?_, fun q z h0 h => log_tiny h0 h⟩
  intro x hx
  exact log_neg (by rwa [i_zero])

/-- C35: no undefined behaviour and termination for every value of the type. -/
theorem C35_total (hf : f.exact = false) (x : FV f) (hx : Valid x) : ∃ r, log x = .ok r := by
  cases x with
  | nan => exact ⟨_, C35_special.1⟩
  | inf s =>
    cases s
    · exact ⟨_, log_posinf⟩
    · exact ⟨_, log_neg (by simp)⟩
  | fin q z =>
    rcases lt_or_ge q 0 with h | h
    · exact ⟨_, log_neg (by rw [i_zero, fin_lt]; exact h)⟩
    rcases lt_or_ge q (minNormal f) with h1 | h1
    · exact ⟨_, log_tiny h h1⟩
    by_cases hc : (limMin : FV f) > fabs ((fin q z : FV f) - i 1)
    · exact ⟨_, log_near_one h1 hc⟩
    rw [log_normal h1 hc]
    split
    · obtain ⟨m, w, k, a, b, c, e⟩ := split_total hf hx h1
      exact ⟨_, log_breakup_eq a b c e⟩
    · exact ⟨_, rfl⟩

/-- C35: the recursion depth.  `mantissa` and `find_exponent` finish within `emax + 2` calls (130 for `float`,
1026 for `double`, 16386 for `long double`), for every positive normal argument. -/
theorem C35_depth (hf : f.exact = false) (q : ℚ) (z : Bool) (hx : Valid (fin q z : FV f))
    (h : minNormal f ≤ q) :
    (∃ m w, mantissa (f.emax.toNat + 2) (fin q z : FV f) = .ok (fin m w) ∧ 1 ≤ m ∧ m ≤ 10) ∧
    (∃ k, find_exponent (f.emax.toNat + 2) (fin q z : FV f) 0 = .ok k) := by
  have hq0 : 0 < q := lt_of_lt_of_le (minNormal_pos f) h
  have he : ((f.emax.toNat : ℕ) : ℤ) = f.emax := Int.toNat_of_nonneg (by have := emax_large f; omega)
  rcases le_or_gt 1 q with h1 | h1
  · obtain ⟨m, w, k, θ, a, b, c, e, -⟩ := split_down (f := f) f.emax.toNat q z (f.emax.toNat + 2)
      (f.emax.toNat + 2) 0 (by omega) (by omega) h1 hx.novf (by
        have h2 := (lt_emax hf hq0.le hx.novf).le
        rw [← he, pow2_nat] at h2
        have : (0:ℚ) < 2 ^ f.emax.toNat := by positivity
        linarith)
    exact ⟨⟨m, w, a, c, e⟩, ⟨_, b⟩⟩
  · have hp : 1 ≤ q * 2 ^ f.emax.toNat := by
      have h2 : pow2 (-f.emax) ≤ q := by
        refine le_trans ?_ h
        exact pow2_le (by rcases f with ⟨⟨⟩, ⟨⟩⟩ <;> decide)
      rw [← he, pow2_eq, zpow_neg, inv_eq_one_div, div_le_iff₀ (by positivity)] at h2
      exact_mod_cast h2
    obtain ⟨m, w, k, θ, a, b, c, -⟩ := mantissa_up (f := f) f.emax.toNat q z (f.emax.toNat + 2) (by omega) h
      (by linarith) hp
    obtain ⟨v, k', l, θ', a', -⟩ := find_exponent_up (f := f) f.emax.toNat q z (f.emax.toNat + 2) 0 (by omega) h
      (by linarith) hp
    exact ⟨⟨m, w, a, b, c⟩, ⟨_, a'⟩⟩

/-! ## C36 -/

/-- C36: for `x ≥ 1` the decimal mantissa `m ∈ [1,10]` and exponent `k` used by `log` belong together:
`m · 10^k = x` up to `k` roundings. -/
theorem C36_consistent (hf : f.exact = false) (q : ℚ) (z : Bool) (hx : Valid (fin q z : FV f)) (h1 : 1 ≤ q) :
    ∃ (m : ℚ) (w : Bool) (k : ℕ) (θ : ℚ), mantissa recFuel (fin q z : FV f) = .ok (fin m w) ∧
      find_exponent recFuel (fin q z : FV f) 0 = .ok k ∧ 1 ≤ m ∧ m ≤ 10 ∧ m * 10 ^ k = q * θ ∧
      (1 - uro f) ^ k ≤ θ ∧ θ ≤ (1 + uro f) ^ k := by
  have hF := recFuel_big
  obtain ⟨m, w, k, θ, a, b, c, e, hn, hm, -⟩ := split_down (f := f) 16384 q z recFuel recFuel 0 (by omega)
    (by omega) h1 hx.novf (le_mul_pow hf (by linarith) hx.novf)
  refine ⟨m, w, k, θ, a, by simpa using b, c, e, ?_, hn.1, hn.2⟩
  rw [hm]; field_simp

/-- C36 (negation for small arguments): `log(1e-14)` uses the mantissa `9.99…` together with the exponent
`-14`; the result is above `-30` although the logarithm of the argument is below `-32`. -/
theorem C36_inconsistent :
    ∃ x m r : ℚ, (d 1e-14 : FV binary64) = fin x false ∧ mantissa recFuel (fin x false : FV binary64) = .ok (fin m false) ∧
      find_exponent recFuel (fin x false : FV binary64) 0 = .ok (-14) ∧ 9 < m ∧
      log (fin x false : FV binary64) = .ok (fin r false) ∧ -30 < r ∧ Real.log x < -32 := by
  refine ⟨6338253001141147 / 633825300114114700748351602688, 5629499534213119 / 562949953421312,
    -8425561110522435 / 281474976710656, by decide +kernel, by decide +kernel, by decide +kernel, by norm_num,
    by decide +kernel, by norm_num, ?_⟩
  rw [Real.log_lt_iff_lt_exp (by norm_num)]
  have h1 := Real.exp_one_lt_d9
  have h2 : Real.exp (-32) = 1 / (Real.exp 1) ^ 32 := by
    rw [← Real.exp_nat_mul, Real.exp_neg]; norm_num
  rw [h2, lt_div_iff₀ (by positivity)]
  have h3 : Real.exp 1 ^ 32 ≤ 2.7182818286 ^ 32 := pow_le_pow_left₀ (Real.exp_pos 1).le h1.le 32
  have h4 : ((6338253001141147 / 633825300114114700748351602688 : ℚ) : ℝ)
    = 6338253001141147 / 633825300114114700748351602688 := by push_cast; rfl
  rw [h4]
  calc _ ≤ (6338253001141147 / 633825300114114700748351602688 : ℝ) * 2.7182818286 ^ 32 := by gcongr
    _ < 1 := by norm_num

/-! ## C38 -/

/-- C38: integral arguments of `log`: every negative integer gives `0`, zero gives `-inf`, one gives `0`. -/
theorem C38_log (n : ℤ) : (n < 0 → logI n = .ok (fin 0 false)) ∧ (n = 0 → logI n = .ok (inf true)) ∧
    (n = 1 → logI n = .ok (fin 0 false)) ∧ (2 ≤ n → logI n = log (i n : FV binary64)) := by
  unfold logI
  refine ⟨fun h => ?_, fun h => ?_, fun h => ?_, fun h => ?_⟩
  · rw [if_neg (by omega), if_neg (by omega), i_zero]
  · rw [if_pos h]; rfl
  · subst h; simp
  · rw [if_neg (by omega), if_pos (by omega)]; rfl

/-- C38: likewise `log2` and `log10` of negative integers are `0`, of zero `-inf`. -/
theorem C38_log2_log10 (n : ℤ) : (n < 0 → log2I n = .ok (fin 0 false) ∧ log10I n = .ok (fin 0 false)) ∧
    (n = 0 → log2I n = .ok (inf true) ∧ log10I n = .ok (inf true)) := by
  unfold log2I log10I
  constructor
  · intro h
    rw [(C38_log n).1 h]
    constructor <;> decide +kernel
  · intro h
    rw [(C38_log n).2.1 h]
    constructor <;> decide +kernel

example : logI (-5) = .ok (fin 0 false) ∧ logI 2 = .ok (fin (6243314768165359 / 9007199254740992) false) := by
  decide +kernel

end Gcem.Props
