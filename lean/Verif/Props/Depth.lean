import Verif.Model.Depth
import Verif.IntLemmas
import Verif.Props.Log
import Verif.Props.Sqrt
import Verif.Props.Gamma
import Mathlib.Data.Nat.Fib.Basic
import Mathlib.Data.Nat.Choose.Basic
import Mathlib.Data.Nat.Log

/-!
# Depth of the recursions

How many nested calls the recursive functions make: the quantity limited by `-fconstexpr-depth` (512 by default).
-/

namespace Gcem
open FV
variable {f : Fmt}

/-! ## Decimal splitting -/

/-- `10` less a rounding error. -/
def cLo : ℚ := 99999 / 10000
/-- `10` plus a rounding error. -/
def cHi : ℚ := 10001 / 1000

theorem cLo_pos : 0 < cLo := by norm_num [cLo]
theorem cHi_pos : 0 < cHi := by norm_num [cHi]

theorem down_depth (n : ℕ) : ∀ (q : ℚ) (z : Bool) (e : ℤ), 1 ≤ q → overflows f q = false →
    q ≤ 10 * cLo ^ n → (∃ m w, mantissa (n + 1) (fin q z : FV f) = .ok (fin m w)) ∧
      ∃ k, find_exponent (n + 1) (fin q z : FV f) e = .ok k := by
  induction n with
  | zero =>
    intro q z e h1 ho h2
    have h2 : q ≤ 10 := by simpa using h2
    exact ⟨⟨_, _, mantissa_done h1 h2⟩, ⟨_, find_exponent_done h1 h2⟩⟩
  | succ n ih =>
    intro q z e h1 ho h2
    rcases le_or_gt q 10 with h4 | h4
    · exact ⟨⟨_, _, mantissa_done h1 h4⟩, ⟨_, find_exponent_done h1 h4⟩⟩
    obtain ⟨w, θ, hw, ht, h5, h6, h7⟩ := div_ten (f := f) (z := z) h4 ho
    have ht2 := ht.2
    rw [pow_one] at ht2
    have hu := uro_le_rat f
    have hc : q / 10 * θ ≤ 10 * cLo ^ n := by
      have hp : 0 < cLo ^ n := pow_pos cLo_pos _
      have h8 : cLo * θ ≤ 10 := by
        have : cLo * θ ≤ cLo * (1 + 1 / 16777216) := mul_le_mul_of_nonneg_left (by linarith) cLo_pos.le
        refine this.trans ?_
        norm_num [cLo]
      have ht0 := near_pos (by linarith) ht
      calc q / 10 * θ ≤ (10 * cLo ^ (n + 1)) / 10 * θ := by gcongr
        _ = cLo ^ n * (cLo * θ) := by rw [pow_succ]; ring
        _ ≤ cLo ^ n * 10 := by gcongr
        _ = _ := by ring
    obtain ⟨a, b⟩ := ih (q / 10 * θ) w (e + 1) h5 h6 hc
    rw [mantissa_down h4, find_exponent_down h4, hw]
    exact ⟨a, b⟩

theorem down_short (n : ℕ) : ∀ (q : ℚ) (z : Bool) (e : ℤ), overflows f q = false →
    10 * cHi ^ n < q → mantissa (n + 1) (fin q z : FV f) = .error .noReturn ∧
      find_exponent (n + 1) (fin q z : FV f) e = .error .noReturn := by
  induction n with
  | zero =>
    intro q z e ho h2
    have h4 : 10 < q := by simpa using h2
    rw [mantissa_down h4, find_exponent_down h4]
    exact ⟨rfl, rfl⟩
  | succ n ih =>
    intro q z e ho h2
    have h1 : 1 ≤ cHi ^ (n + 1) := one_le_pow₀ (by norm_num [cHi])
    have h4 : 10 < q := by linarith
    obtain ⟨w, θ, hw, ht, h5, h6, h7⟩ := div_ten (f := f) (z := z) h4 ho
    have ht1 := ht.1
    rw [pow_one] at ht1
    have hu := uro_le_rat f
    have hc : 10 * cHi ^ n < q / 10 * θ := by
      have hp : 0 < cHi ^ n := pow_pos cHi_pos _
      have h8 : 10 ≤ cHi * θ := by
        have : cHi * (1 - 1 / 16777216) ≤ cHi * θ := mul_le_mul_of_nonneg_left (by linarith) cHi_pos.le
        refine le_trans ?_ this
        norm_num [cHi]
      have ht0 := near_pos (by linarith) ht
      calc 10 * cHi ^ n ≤ cHi ^ n * (cHi * θ) := by nlinarith
        _ = (10 * cHi ^ (n + 1)) / 10 * θ := by rw [pow_succ]; ring
        _ < q / 10 * θ := by gcongr
    rw [mantissa_down h4, find_exponent_down h4, hw]
    exact ih _ w (e + 1) h6 hc

theorem mantissa_step {q : ℚ} {z : Bool} (h0 : minNormal f ≤ q) (h1 : q < 1) :
    ∃ w, (∀ n, mantissa (n + 1) (fin q z : FV f) = mantissa n (fin (rnd f (q * 10)) w : FV f)) ∧
      minNormal f ≤ rnd f (q * 10) ∧ rnd f (q * 10) ≤ 10 ∧ q * cLo ≤ rnd f (q * 10) ∧
      rnd f (q * 10) ≤ q * cHi := by
  have hq0 : 0 < q := lt_of_lt_of_le (minNormal_pos f) h0
  obtain ⟨w, hw⟩ := (is_fin (f := f) q z).mul is_ten
    (nov_small (by rw [abs_of_pos (by linarith)]; linarith))
  obtain ⟨θ, ht, hr⟩ := rnd_near (f := f) (q := q * 10) (by linarith)
  have ht1 := ht.1
  have ht2 := ht.2
  rw [pow_one] at ht1 ht2
  have hu := uro_le_rat f
  refine ⟨w, fun n => ?_, le_rnd_of_rep (rep_mn f) (by linarith), rnd_le_of_rep rep_ten (by linarith), ?_, ?_⟩
  · conv_lhs => unfold mantissa
    rw [if_pos (by rw [i_one, fin_lt]; exact h1), hw]
  · rw [hr, mul_assoc]
    refine mul_le_mul_of_nonneg_left ?_ hq0.le
    norm_num [cLo]; linarith
  · rw [hr, mul_assoc]
    refine mul_le_mul_of_nonneg_left ?_ hq0.le
    norm_num [cHi]; linarith

theorem up_depth (n : ℕ) : ∀ (q : ℚ) (z : Bool), minNormal f ≤ q → q ≤ 10 →
    1 ≤ q * cLo ^ n → ∃ m w, mantissa (n + 1) (fin q z : FV f) = .ok (fin m w) := by
  induction n with
  | zero =>
    intro q z h0 h2 h3
    exact ⟨_, _, mantissa_done (by simpa using h3) h2⟩
  | succ n ih =>
    intro q z h0 h2 h3
    rcases le_or_gt 1 q with h4 | h4
    · exact ⟨_, _, mantissa_done h4 h2⟩
    obtain ⟨w, e, a, b, c, -⟩ := mantissa_step (f := f) (z := z) h0 h4
    rw [e]
    refine ih _ w a b ?_
    have hp : 0 < cLo ^ n := pow_pos cLo_pos _
    calc (1:ℚ) ≤ q * cLo ^ (n + 1) := h3
      _ = q * cLo * cLo ^ n := by rw [pow_succ]; ring
      _ ≤ _ := by gcongr

theorem up_short (n : ℕ) : ∀ (q : ℚ) (z : Bool), minNormal f ≤ q →
    q * cHi ^ n < 1 → mantissa (n + 1) (fin q z : FV f) = .error .noReturn := by
  induction n with
  | zero =>
    intro q z h0 h3
    obtain ⟨w, e, -⟩ := mantissa_step (f := f) (z := z) h0 (by simpa using h3)
    rw [e]; rfl
  | succ n ih =>
    intro q z h0 h3
    have hq0 : 0 < q := lt_of_lt_of_le (minNormal_pos f) h0
    have h1 : 1 ≤ cHi ^ (n + 1) := one_le_pow₀ (by norm_num [cHi])
    have h4 : q < 1 := by nlinarith
    obtain ⟨w, e, a, b, -, c⟩ := mantissa_step (f := f) (z := z) h0 h4
    rw [e]
    refine ih _ w a ?_
    have hp : 0 < cHi ^ n := pow_pos cHi_pos _
    calc rnd f (q * 10) * cHi ^ n ≤ q * cHi * cHi ^ n := by gcongr
      _ = q * cHi ^ (n + 1) := by rw [pow_succ]; ring
      _ < 1 := h3

/-- `find_exponent` on positive arguments at most 16: fewer calls than `mantissa`, plus one. -/
theorem fe_depth (n : ℕ) : ∀ (q : ℚ) (z : Bool) (e : ℤ), minNormal f ≤ q → q ≤ 16 →
    1 ≤ q * cLo ^ n → ∃ k, find_exponent (n + 2) (fin q z : FV f) e = .ok k := by
  have hbase : ∀ (n : ℕ) (q : ℚ) (z : Bool) (e : ℤ), 1 ≤ q → q ≤ 16 →
      ∃ k, find_exponent (n + 2) (fin q z : FV f) e = .ok k := by
    intro n q z e h1 h2
    rcases le_or_gt q 10 with h4 | h4
    · exact ⟨_, find_exponent_done h1 h4⟩
    · obtain ⟨w, θ, hw, ht, h5, h6, h7⟩ := div_ten (f := f) (z := z) h4
        (overflows_small (by rw [abs_of_pos (by linarith)]; linarith))
      rw [find_exponent_down h4, hw, find_exponent_done h5 (by linarith)]
      exact ⟨_, rfl⟩
  induction n with
  | zero =>
    intro q z e h1 h2 h3
    exact hbase 0 q z e (by simpa using h3) h2
  | succ n ih =>
    intro q z e h1 h2 h3
    rcases le_or_gt 1 q with h4 | h4
    · exact hbase _ q z e h4 h2
    · have hq0 : 0 < q := lt_of_lt_of_le (minNormal_pos f) h1
      have hq := is_fin (f := f) q z
      obtain ⟨c3, i3, l3, u3⟩ := is_1em3 (f := f)
      obtain ⟨c1, i1, l1, u1⟩ := is_1em1 (f := f)
      have hu := uro_le_rat f
      have step : ∀ (j : ℕ) (c : FV f), Is c (10 ^ j) → 1 ≤ j → q * 10 ^ j ≤ 11 →
          find_exponent (n + 3) (fin q z : FV f) e = find_exponent (n + 2) (fin q z * c : FV f) (e - j) →
          ∃ k, find_exponent (n + 3) (fin q z : FV f) e = .ok k := by
        intro j c hc hj1 hqj heq
        have h10 : (10:ℚ) ≤ 10 ^ j := by
          calc (10:ℚ) = 10 ^ 1 := by norm_num
            _ ≤ 10 ^ j := pow_le_pow_right₀ (by norm_num) hj1
        have hpos : 0 < q * 10 ^ j := by positivity
        have hge : q ≤ q * 10 ^ j := by nlinarith
        obtain ⟨w, hw⟩ := hq.mul hc (nov_small (by rw [abs_of_pos hpos]; linarith))
        obtain ⟨θ, ht, hr⟩ := rnd_near (f := f) (q := q * 10 ^ j) (by linarith)
        have ht1 := ht.1
        have ht2 := ht.2
        rw [pow_one] at ht1 ht2
        rw [heq, hw]
        refine ih _ w _ (le_rnd_of_rep (rep_mn f) (by linarith)) (by rw [hr]; nlinarith) ?_
        rw [hr]
        have hp : 0 < cLo ^ n := pow_pos cLo_pos _
        have h5 : cLo ≤ 10 ^ j * θ := by
          have h6 : (10:ℚ) * (1 - 1 / 16777216) ≤ 10 ^ j * θ := mul_le_mul h10 (by linarith) (by norm_num) (by positivity)
          refine le_trans ?_ h6
          norm_num [cLo]
        calc (1:ℚ) ≤ q * cLo ^ (n + 1) := h3
          _ = q * cLo ^ n * cLo := by rw [pow_succ]; ring
          _ ≤ q * cLo ^ n * (10 ^ j * θ) := by gcongr
          _ = _ := by ring
      have hd : find_exponent (n + 3) (fin q z : FV f) e =
          if (fin q z : FV f) < d 1e-3 then find_exponent (n + 2) (fin q z * d 1e4 : FV f) (e - 4)
          else if (fin q z : FV f) < d 1e-1 then find_exponent (n + 2) (fin q z * d 1e2 : FV f) (e - 2)
          else find_exponent (n + 2) (fin q z * i 10 : FV f) (e - 1) := by
        conv_lhs => unfold find_exponent
        rw [if_pos (show (fin q z : FV f) < i 1 by rw [i_one, fin_lt]; exact h4)]
      by_cases hc3 : q < c3
      · rw [if_pos ((hq.lt_iff i3).2 hc3)] at hd
        exact step 4 _ (by have := is_1e4 (f := f); norm_num at this ⊢; exact this) (by omega)
          (by norm_num; linarith) hd
      · rw [if_neg (fun h => hc3 ((hq.lt_iff i3).1 h))] at hd
        by_cases hc1 : q < c1
        · rw [if_pos ((hq.lt_iff i1).2 hc1)] at hd
          exact step 2 _ (by have := is_1e2 (f := f); norm_num at this ⊢; exact this) (by omega)
            (by norm_num; linarith) hd
        · rw [if_neg (fun h => hc1 ((hq.lt_iff i1).1 h))] at hd
          exact step 1 _ (by simpa using is_ten (f := f)) (by omega) (by norm_num; linarith) hd

/-- Decimal digits of the largest finite value. -/
def decLev : FTy → ℕ | .float => 38 | .double => 308 | .ldouble => 4932

theorem nat_pow_ratio {a b m n k : ℕ} (hb : 0 < b) (h : m * b ^ n ≤ k * a ^ n) :
    (m:ℚ) ≤ k * ((a:ℚ) / b) ^ n := by
  have hb' : (0:ℚ) < (b:ℚ) ^ n := by positivity
  rw [div_pow, mul_div_assoc', le_div_iff₀ hb']
  exact_mod_cast h

theorem decLev_hi (f : Fmt) : pow2 f.emax ≤ 10 * cLo ^ decLev f.ty := by
  have key : ∀ e n : ℕ, 2 ^ e * 10000 ^ n ≤ 10 * 99999 ^ n → pow2 e ≤ 10 * cLo ^ n := by
    intro e n h
    have := nat_pow_ratio (a := 99999) (b := 10000) (m := 2 ^ e) (k := 10) (by norm_num) h
    rw [pow2_nat]
    have e1 : cLo = ((99999:ℕ):ℚ) / (10000:ℕ) := by norm_num [cLo]
    rw [e1]
    exact_mod_cast this
  rcases f with ⟨t, e⟩
  cases t
  · exact key 128 38 (by decide +kernel)
  · exact key 1024 308 (by decide +kernel)
  · exact key 16384 4932 (by decide +kernel)

theorem decLev_lo (f : Fmt) : 1 ≤ minNormal f * cLo ^ decLev f.ty := by
  have key : ∀ e n : ℕ, 2 ^ e * 10000 ^ n ≤ 1 * 99999 ^ n → 1 ≤ pow2 (-(e:ℤ)) * cLo ^ n := by
    intro e n h
    have := nat_pow_ratio (a := 99999) (b := 10000) (m := 2 ^ e) (k := 1) (by norm_num) h
    rw [pow2_eq, zpow_neg, zpow_natCast, inv_mul_eq_div, le_div_iff₀ (by positivity), one_mul]
    have e1 : cLo = ((99999:ℕ):ℚ) / (10000:ℕ) := by norm_num [cLo]
    rw [e1]
    push_cast at this
    push_cast
    linarith
  rcases f with ⟨t, e⟩
  cases t
  · exact key 126 38 (by decide +kernel)
  · exact key 1022 308 (by decide +kernel)
  · exact key 16382 4932 (by decide +kernel)

theorem valid_two_pow {n : ℕ} (h : (n:ℤ) < f.emax) : Valid (fin (2 ^ n) false : FV f) :=
  ⟨rep_pow2_nat, overflows_false_iff.2 (Or.inr (by
    rw [abs_of_pos (by positivity), ← pow2_nat]; exact pow2_lt h)), by simp⟩

theorem one_le_two_pow' (n : ℕ) : (1:ℚ) ≤ 2 ^ n := one_le_pow₀ (by norm_num)

theorem le_two_pow {a b : ℕ} (h : 10 ^ a ≤ 2 ^ b) : (10:ℚ) ^ a ≤ 2 ^ b := by exact_mod_cast h

namespace Props

/-- C90, logarithm: for every positive normal argument the decimal splitting needs at most 39 (`float`),
309 (`double`) or 4933 (`long double`) nested calls of `mantissa`, and one more of `find_exponent`. -/
theorem C90_log_depth (hf : f.exact = false) (q : ℚ) (z : Bool) (hx : Valid (fin q z : FV f))
    (h : minNormal f ≤ q) :
    (∃ m w, mantissa (decLev f.ty + 1) (fin q z : FV f) = .ok (fin m w)) ∧
    (∃ k, find_exponent (decLev f.ty + 2) (fin q z : FV f) 0 = .ok k) := by
  have hq0 : 0 < q := lt_of_lt_of_le (minNormal_pos f) h
  have h2 := (lt_emax hf hq0.le hx.novf).le.trans (decLev_hi f)
  have h3 : 1 ≤ q * cLo ^ decLev f.ty := by
    refine (decLev_lo f).trans ?_
    have : 0 < cLo ^ decLev f.ty := pow_pos cLo_pos _
    gcongr
  rcases le_or_gt 1 q with h1 | h1
  · refine ⟨(down_depth _ q z 0 h1 hx.novf h2).1, ?_⟩
    refine (down_depth (decLev f.ty + 1) q z 0 h1 hx.novf (h2.trans ?_)).2
    rw [pow_succ]
    have : 0 < cLo ^ decLev f.ty := pow_pos cLo_pos _
    have : (1:ℚ) ≤ cLo := by norm_num [cLo]
    nlinarith
  · exact ⟨up_depth _ q z h (by linarith) h3, fe_depth _ q z 0 h (by linarith) h3⟩

example : ∃ m w, mantissa 309 (fin (2 ^ 1000) false : FV binary64) = .ok (fin m w) := by
  have key : ∀ q : ℚ, Valid (fin q false : FV binary64) → 1 ≤ q →
      ∃ m w, mantissa 309 (fin q false : FV binary64) = .ok (fin m w) :=
    fun q h1 h2 => (C90_log_depth rfl q false h1 ((minNormal_lt_one _).le.trans (by linarith))).1
  exact key _ (valid_two_pow (by decide)) (one_le_two_pow' 1000)

/-- C90, logarithm, the other direction: `n` nested calls are not enough for `x ≥ 10^(n+1)` nor, in `mantissa`,
for `x ≤ 10^-n` (`n ≤ 2000`; this concerns `double` up to `n = 307` and `long double`). -/
theorem C90_log_short (n : ℕ) (hn : n ≤ 2000) (q : ℚ) (z : Bool) (hx : Valid (fin q z : FV f)) :
    (10 ^ (n + 1) ≤ q → mantissa n (fin q z : FV f) = .error .noReturn ∧
      find_exponent n (fin q z : FV f) 0 = .error .noReturn) ∧
    (minNormal f ≤ q → q ≤ 1 / 10 ^ n → mantissa n (fin q z : FV f) = .error .noReturn) := by
  have hc : cHi ^ n ≤ 10 ^ n * (10001 / 10000) ^ 2000 := by
    have : cHi = 10 * (10001 / 10000) := by norm_num [cHi]
    rw [this, mul_pow]
    have : ((10001:ℚ) / 10000) ^ n ≤ (10001 / 10000) ^ 2000 := pow_le_pow_right₀ (by norm_num) hn
    gcongr
  have h2 : ((10001:ℚ) / 10000) ^ 2000 < 2 := by
    have : (10001:ℚ) ^ 2000 < 2 * 10000 ^ 2000 := by
      have : (10001:ℕ) ^ 2000 < 2 * 10000 ^ 2000 := by decide +kernel
      exact_mod_cast this
    rw [div_pow, div_lt_iff₀ (by positivity)]
    exact this
  have hp : (0:ℚ) < 10 ^ n := by positivity
  have h3 : cHi ^ n < 10 ^ n * 2 := lt_of_le_of_lt hc (by gcongr)
  have h4 : ∀ m, 10 * cHi ^ m ≤ cHi ^ (m + 1) := by
    intro m
    have : 0 < cHi ^ m := pow_pos cHi_pos _
    have h5 : 10 ≤ cHi := by norm_num [cHi]
    rw [pow_succ]; nlinarith
  constructor
  · intro hq
    cases n with
    | zero => exact ⟨rfl, rfl⟩
    | succ n =>
      refine down_short n q z 0 hx.novf ?_
      have := h4 n
      rw [pow_succ (10:ℚ) (n + 1)] at hq
      linarith
  · intro h0 hq
    cases n with
    | zero => rfl
    | succ n =>
      refine up_short n q z h0 ?_
      have h6 : 0 < cHi ^ n := pow_pos cHi_pos _
      have h5 : cHi ^ n < 10 ^ (n + 1) := by have := h4 n; linarith
      calc q * cHi ^ n ≤ 1 / 10 ^ (n + 1) * cHi ^ n := by gcongr
        _ < 1 / 10 ^ (n + 1) * 10 ^ (n + 1) := by gcongr
        _ = 1 := by field_simp

/-- `log(x)` for the `long double` value `x = 2^2000`: 512 nested calls do not suffice. -/
example : mantissa 512 (fin (2 ^ 2000) false : FV x87) = .error .noReturn :=
  ((C90_log_short 512 (by norm_num) _ _ (valid_two_pow (by decide))).1
    (le_two_pow (by decide +kernel))).1

/-- C90, square root: at most 9 (`float`), 44 (`double`) or 635 (`long double`) nested calls of `sqrt_simplify`. -/
theorem C90_sqrt_depth (hf : f.exact = false) (q : ℚ) (z : Bool) (hx : Valid (fin q z : FV f))
    (h : minNormal f ≤ q) : ∃ r, sqrt_simplify (sqrtLev f.ty + 1) (fin q z : FV f) (i 1) = .ok r := by
  have hq0 : 0 < q := lt_of_lt_of_le (minNormal_pos f) h
  rcases le_or_gt (1/4) q with h4 | h4
  · obtain ⟨r, hr, -⟩ := sqrt_simplify_acc hf (is_fin q z) hx.rep hx.novf
      (by
        refine le_trans ?_ h4
        have : pow2 (-2) = 1 / 4 := by norm_num [pow2_eq]
        rw [← this]
        exact pow2_le (by rcases f with ⟨⟨⟩, ⟨⟩⟩ <;> decide))
      (le_lev (lt_emax hf hq0.le hx.novf)) (sqrtLev_u f) (Nat.lt_succ_self _)
    exact ⟨_, hr⟩
  · exact ⟨_, (reduce_done (m := i 1) (is_fin q z) hx.rep (le_refl 1) (by linarith)).2 _⟩

/-- C90, square root, the other direction: `n` nested calls are not enough for `x ≥ 10^(8n+1)`
(`n ≤ 616`; for `n ≥ 38` only `long double` has such values). -/
theorem C90_sqrt_short (n : ℕ) (hn : n ≤ 616) (q : ℚ) (z : Bool) (hx : Valid (fin q z : FV f)) (m : FV f)
    (hq : 10 ^ (8 * n + 1) ≤ q) : sqrt_simplify n (fin q z : FV f) m = .error .noReturn := by
  have key : ∀ (n : ℕ) (q : ℚ) (z : Bool) (m : FV f), overflows f q = false →
      100000000 * (100010000:ℚ) ^ n < q → sqrt_simplify (n + 1) (fin q z : FV f) m = .error .noReturn := by
    intro n
    induction n with
    | zero =>
      intro q z m ho h
      rw [sqrt_simplify, if_pos (by rw [gt_iff, is_1e8.lt_iff (is_fin q z)]; linarith)]
      rfl
    | succ n ih =>
      intro q z m ho h
      have h1 : (1:ℚ) ≤ 100010000 ^ (n + 1) := one_le_pow₀ (by norm_num)
      have h8 : 100000000 < q := by linarith
      obtain ⟨θ, ht, hr⟩ := rnd_near (f := f) (q := q / 100000000) (by
        have := minNormal_lt_one f; linarith)
      have ht1 := ht.1
      have ht2 := ht.2
      rw [pow_one] at ht1 ht2
      have hu := uro_le_rat f
      have ht0 := near_pos (by linarith) ht
      have hov : overflows f (rnd f (q / 100000000)) = false := by
        rw [hr]
        refine overflows_of_abs_le (b := q) ?_ ho
        rw [abs_of_pos (by positivity), abs_of_pos (by linarith)]
        nlinarith
      obtain ⟨w, hw⟩ := (is_fin (f := f) q z).div is_1e8 (by norm_num) hov
      rw [sqrt_simplify, if_pos (by rw [gt_iff, is_1e8.lt_iff (is_fin q z)]; linarith), hw]
      refine ih _ w _ hov ?_
      rw [hr]
      have hp : (0:ℚ) < 100010000 ^ n := by positivity
      calc (100000000:ℚ) * 100010000 ^ n ≤ 100010000 ^ n * (100010000 * θ) := by nlinarith
        _ = (100000000 * 100010000 ^ (n + 1)) / 100000000 * θ := by rw [pow_succ]; ring
        _ < q / 100000000 * θ := by gcongr
  cases n with
  | zero => rfl
  | succ n =>
    refine key n q z m hx.novf (lt_of_lt_of_le ?_ hq)
    have h1 : ((10001:ℚ) / 10000) ^ n ≤ (10001 / 10000) ^ 616 := pow_le_pow_right₀ (by norm_num) (by omega)
    have h2 : ((10001:ℚ) / 10000) ^ 616 < 2 := by
      have : (10001:ℚ) ^ 616 < 2 * 10000 ^ 616 := by
        have : (10001:ℕ) ^ 616 < 2 * 10000 ^ 616 := by decide +kernel
        exact_mod_cast this
      rw [div_pow, div_lt_iff₀ (by positivity)]
      exact this
    have e1 : (100010000:ℚ) = 100000000 * (10001 / 10000) := by norm_num
    have e2 : (10:ℚ) ^ (8 * (n + 1) + 1) = 100000000 * 100000000 ^ n * 10 := by
      rw [pow_succ, pow_mul, pow_succ]; norm_num; ring
    rw [e1, e2, mul_pow]
    have hp : (0:ℚ) < 100000000 ^ n := by positivity
    generalize ((10001:ℚ) / 10000) ^ 616 = c at h1 h2
    nlinarith

theorem add_one_big (hf : f.exact = false) {q : ℚ} (hr : Rep f q) (h : q < -1) (hn : q ≠ ⌊q⌋) :
    minNormal f ≤ |q + 1| := by
  have h0 : q ≠ 0 := by rintro rfl; linarith
  obtain ⟨m, hm, -⟩ := rep_scaled hf h0 hr
  rcases le_total 0 (fexp f q) with he | he
  · obtain ⟨k, -, hk⟩ := pow2_mult he
    rw [pow2_zero, mul_one] at hk
    exfalso; apply hn
    rw [show q = ((m * k : ℤ) : ℚ) by rw [hm, hk]; push_cast; ring, Int.floor_intCast]
  · obtain ⟨k, -, hk⟩ := pow2_mult he
    rw [pow2_zero] at hk
    have e : q + 1 = ((m + k : ℤ) : ℚ) * pow2 (fexp f q) := by
      rw [Int.cast_add, add_mul, ← hm, ← hk]
    have hp := pow2_pos (fexp f q)
    have hne : m + k ≠ 0 := by
      intro hc
      rw [hc] at e
      simp at e
      linarith
    have h1 : (1:ℚ) ≤ |((m + k : ℤ) : ℚ)| := by
      rw [← Int.cast_abs]; exact_mod_cast Int.one_le_abs hne
    have h2 : fexp f 1 ≤ fexp f q := fexp_mono one_ne_zero (by
      rw [abs_one, abs_of_neg (by linarith)]; linarith)
    have h3 : minNormal f ≤ pow2 (fexp f 1) := pow2_le (by
      rcases f with ⟨⟨⟩, ⟨⟩⟩ <;> decide +kernel)
    have h4 := pow2_le h2
    rw [e, abs_mul, abs_of_pos hp]
    nlinarith

theorem tg_short_step (hf : f.exact = false) {n : ℕ} (q : ℚ) (z : Bool) (hx : Valid (fin q z : FV f))
    (hi : q ≠ ⌊q⌋) (hq : q < 0) (hb : -2 ^ 62 ≤ q) (hm : minNormal f ≤ |q|)
    (h : tgamma_check n (fin q z + i 1 : FV f) = .error .noReturn) :
    tgamma_check (n + 1) (fin q z : FV f) = .error .noReturn := by
  obtain ⟨W, w1, w2, -, w4, w5⟩ := whole_neg hf hx hq hm
  have hW : -2 ^ 63 ≤ W := by
    have h2 : (-2 ^ 62 : ℤ) ≤ ⌊q⌋ := Int.le_floor.2 (by push_cast; linarith)
    omega
  rw [tg_neg hq hm, w4, if_pos hW]
  simp only [Except.bind]
  rw [if_neg (fun hh => hi (w5.1 hh)), h]

/-- `sqrt(x)` for the `long double` value `x = 2^14000`: 512 nested calls do not suffice. -/
example : sqrt_simplify 512 (fin (2 ^ 14000) false : FV x87) (i 1) = .error .noReturn :=
  C90_sqrt_short 512 (by norm_num) _ _ (valid_two_pow (by decide)) _
    (le_two_pow (by decide +kernel))

/-- C90, `tgamma`: a negative non-integer argument with `-n-1 < x < -n` takes exactly `n + 2` nested calls:
`n + 1` are not enough, and `n + 2` give the same as any larger number. -/
theorem C90_tgamma_depth (hf : f.exact = false) (n : ℕ) (q : ℚ) (z : Bool) (hx : Valid (fin q z : FV f))
    (hi : q ≠ ⌊q⌋) (h1 : -(n:ℚ) - 1 < q) (h2 : q < -(n:ℚ)) (hb : -2 ^ 62 ≤ q)
    (hm : minNormal f ≤ |q|) :
    tgamma_check (n + 1) (fin q z : FV f) = .error .noReturn ∧
    ∀ m, tgamma_check (n + 2 + m) (fin q z : FV f) = tgamma_check (n + 2) (fin q z) := by
  refine ⟨?_, fun m => (tg_fuel hf (n + 1) q z hx (by push_cast; linarith) m).1⟩
  clear h1
  induction n generalizing q z with
  | zero =>
    have hq : q < 0 := by simpa using h2
    exact tg_short_step hf q z hx hi hq hb hm rfl
  | succ n ih =>
    push_cast at h2
    have hn : (0:ℚ) ≤ n := by positivity
    refine tg_short_step hf q z hx hi (by linarith) hb hm ?_
    have hr := rep_add_one hf hx.rep (by linarith) hi
    have hov : overflows f (q + 1) = false := overflows_of_abs_le (by
      rw [abs_of_neg (by linarith), abs_of_neg (by linarith)]; linarith) hx.novf
    rw [i_one, fin_add, mk_of_rep hr hov]
    have hi' : q + 1 ≠ ⌊q + 1⌋ := by
      rw [Int.floor_add_one]; push_cast
      exact fun h => hi (by linarith)
    refine ih (q + 1) _ ?_ hi' (by linarith) (by linarith) ?_
    · rw [← mk_of_rep hr hov]; exact valid_mk _ _
    · exact add_one_big hf hx.rep (by linarith) hi

/-- `tgamma(-511.5)` takes 513 nested calls. -/
example : tgamma_check 512 (fin (-1023 / 2) false : FV binary64) = .error .noReturn :=
  (C90_tgamma_depth rfl 511 _ _ (by decide +kernel) (by decide +kernel) (by norm_num) (by norm_num) (by norm_num)
    (by decide +kernel)).1

end Props

/-! ## Integers -/

theorem gcdF_lame (t : IntTy) : ∀ (n : ℕ) (a b : ℤ), 1 ≤ n → b.natAbs < a.natAbs → b.natAbs < Nat.fib (n + 1) →
    gcd_recurF t n a b = gcd_recur t a b := by
  intro n
  induction n using Nat.strong_induction_on with
  | _ n ih =>
    intro a b hn hba hb
    obtain ⟨n, rfl⟩ : ∃ m, n = m + 1 := ⟨n - 1, by omega⟩
    rw [gcd_recurF, gcd_recur]
    split_ifs with h1 h2
    · rfl
    · rfl
    · have hn1 : 1 ≤ n := by
        rcases Nat.eq_zero_or_pos n with h | h
        · subst h; simp at hb; omega
        · exact h
      have hr : (a.tmod b).natAbs < b.natAbs := by rw [Int.natAbs_tmod]; exact Nat.mod_lt _ (by omega)
      rcases lt_or_ge (a.tmod b).natAbs (Nat.fib (n + 1)) with h3 | h3
      · exact ih n (by omega) _ _ hn1 hr h3
      · obtain ⟨n, rfl⟩ : ∃ m, n = m + 1 := ⟨n - 1, by omega⟩
        rw [gcd_recurF, gcd_recur]
        split_ifs with h4 h5
        · rfl
        · rfl
        · have hr2 : (b.tmod (a.tmod b)).natAbs ≤ b.natAbs - (a.tmod b).natAbs := by
            rw [Int.natAbs_tmod b]
            have := Nat.mod_add_div b.natAbs (a.tmod b).natAbs
            have h6 : 1 ≤ b.natAbs / (a.tmod b).natAbs := Nat.div_pos hr.le (by omega)
            have h7 : (a.tmod b).natAbs * 1 ≤ (a.tmod b).natAbs * (b.natAbs / (a.tmod b).natAbs) :=
              Nat.mul_le_mul_left _ h6
            omega
          have hf2 : Nat.fib (n + 1 + 1 + 1) = Nat.fib (n + 1) + Nat.fib (n + 1 + 1) := Nat.fib_add_two
          have hr3 : (b.tmod (a.tmod b)).natAbs < (a.tmod b).natAbs := by
            rw [Int.natAbs_tmod b]; exact Nat.mod_lt _ (by omega)
          have hlt : (b.tmod (a.tmod b)).natAbs < Nat.fib (n + 1) := by omega
          rcases Nat.eq_zero_or_pos n with h | h
          · subst h
            have e3 : Nat.fib (0 + 1 + 1 + 1) = 2 := rfl
            have e2 : Nat.fib (0 + 1 + 1) = 1 := rfl
            omega
          · exact ih n (by omega) _ _ h hr3 hlt

theorem gcdF_all (t : IntTy) (m : ℕ) (hm : 3 ≤ m) (a b : ℤ) (ha : a.natAbs < Nat.fib (m + 1))
    (hb : b.natAbs < Nat.fib (m + 1)) : gcd_recurF t m a b = gcd_recur t a b := by
  rcases lt_or_ge b.natAbs a.natAbs with h | h
  · exact gcdF_lame t m a b (by omega) h hb
  obtain ⟨n, rfl⟩ : ∃ n, m = n + 2 := ⟨m - 2, by omega⟩
  rw [gcd_recurF, gcd_recur]
  split_ifs with h1 h2
  · rfl
  · rfl
  have hmod : (a.tmod b).natAbs < b.natAbs := by rw [Int.natAbs_tmod]; exact Nat.mod_lt _ (by omega)
  rcases lt_or_ge (a.tmod b).natAbs (Nat.fib (n + 2)) with h3 | h3
  · exact gcdF_lame t (n + 1) _ _ (by omega) hmod h3
  rw [gcd_recurF, gcd_recur]
  split_ifs with h4 h5
  · rfl
  · rfl
  have hr2 : (b.tmod (a.tmod b)).natAbs ≤ b.natAbs - (a.tmod b).natAbs := by
    rw [Int.natAbs_tmod b]
    have := Nat.mod_add_div b.natAbs (a.tmod b).natAbs
    have h6 : 1 ≤ b.natAbs / (a.tmod b).natAbs := Nat.div_pos hmod.le (by omega)
    have h7 : (a.tmod b).natAbs * 1 ≤ (a.tmod b).natAbs * (b.natAbs / (a.tmod b).natAbs) :=
      Nat.mul_le_mul_left _ h6
    omega
  have hf2 : Nat.fib (n + 2 + 1) = Nat.fib (n + 1) + Nat.fib (n + 2) := Nat.fib_add_two
  have hr3 : (b.tmod (a.tmod b)).natAbs < (a.tmod b).natAbs := by
    rw [Int.natAbs_tmod b]; exact Nat.mod_lt _ (by omega)
  exact gcdF_lame t n _ _ (by omega) hr3 (by omega)

theorem natAbs_lt_mod {t : IntTy} {a : ℤ} (h : t.has a) : a.natAbs < 2 ^ t.w.bits := by
  obtain ⟨h1, h2⟩ := h
  rcases t with ⟨⟨⟩, ⟨⟩⟩ <;> simp [IntTy.lo, IntTy.hi, Width.bits] at h1 h2 ⊢ <;> omega

namespace Props

/-- C90, `gcd`: whatever the arguments, `gcd_recur` makes at most 47 nested calls for 32-bit and 93 for 64-bit
types. -/
theorem C90_gcd_depth (t : IntTy) (a b : ℤ) (ha : t.has a) (hb : t.has b) :
    gcd_recurF t (match t.w with | .w32 => 47 | .w64 => 93) a b = gcd_recur t a b := by
  have h1 := natAbs_lt_mod ha
  have h2 := natAbs_lt_mod hb
  rcases t with ⟨⟨⟩, s⟩
  · have h3 : 2 ^ 32 < Nat.fib (47 + 1) := by decide +kernel
    exact gcdF_all _ 47 (by omega) a b (h1.trans h3) (h2.trans h3)
  · have h3 : 2 ^ 64 < Nat.fib (93 + 1) := by decide +kernel
    exact gcdF_all _ 93 (by omega) a b (h1.trans h3) (h2.trans h3)

example : gcd_recurF .ullint 93 7540113804746346429 12200160415121876738 = .ok 1 := by decide +kernel

/-- C90, `gcd`: the numbers 47 and 93 are attained, by consecutive Fibonacci numbers. -/
theorem C90_gcd_depth_sharp :
    gcd_recurF .uint 46 1836311903 2971215073 = .error .noReturn ∧
    gcd_recurF .ullint 92 7540113804746346429 12200160415121876738 = .error .noReturn := by
  decide +kernel

/-- C90, `factorial`: exactly `x - 19` nested calls for `x ≥ 20`. -/
theorem C90_factorial_depth (t : IntTy) (x : ℤ) (n : ℕ) :
    (x ≤ 19 + n → 1 ≤ n → factorial_recurF t n x = factorial_recur t x) ∧
    (20 + (n:ℤ) ≤ x → factorial_recurF t n x = .error .noReturn) := by
  induction n generalizing x with
  | zero => exact ⟨by omega, fun _ => rfl⟩
  | succ n ih =>
    constructor
    · intro h _
      rw [factorial_recurF, factorial_recur]
      split_ifs with h1
      · rfl
      · rw [(ih (x - 1)).1 (by push_cast at h; omega) (by push_cast at h; omega)]
    · intro h
      push_cast at h
      rw [factorial_recurF, if_neg (by omega), (ih (x - 1)).2 (by omega)]
      rfl

example : factorial_recurF .uint 512 532 = .error .noReturn := (C90_factorial_depth _ _ _).2 (by norm_num)

/-- C90, `pow` with an integer base: `⌊log₂ e⌋ + 1` nested calls (at most 64) suffice for an exponent `e ≥ 1`. -/
theorem C90_pow_depth (t : IntTy) (base val e : ℤ) (n : ℕ) (h : e < 2 ^ n) (hn : 1 ≤ n) :
    powI_recurF t n base val e = powI_recur t base val e := by
  induction n generalizing base val e with
  | zero => omega
  | succ n ih =>
    rw [powI_recurF, powI_recur]
    split_ifs with h1 h2 h2
    · have hh : e / 2 < 2 ^ n := by rw [pow_succ] at h; omega
      have hn : 1 ≤ n := by
        rcases Nat.eq_zero_or_pos n with h3 | h3
        · subst h3; simp at hh; omega
        · exact h3
      simp only [ih _ _ _ hh hn]
    · have hh : e / 2 < 2 ^ n := by rw [pow_succ] at h; omega
      have hn : 1 ≤ n := by
        rcases Nat.eq_zero_or_pos n with h3 | h3
        · subst h3; simp at hh; omega
        · exact h3
      simp only [ih _ _ _ hh hn]
    · rfl
    · rfl

/-- C90, `pow`: and no fewer (unsigned base, where no multiplication is undefined). -/
theorem C90_pow_depth_sharp (t : IntTy) (ht : t.signed = false) (base val e : ℤ) (n : ℕ) (h : 2 ^ n ≤ e) :
    powI_recurF t n base val e = .error .noReturn := by
  induction n generalizing base val e with
  | zero => rfl
  | succ n ih =>
    have hp : (1:ℤ) ≤ 2 ^ n := one_le_pow₀ (by norm_num)
    rw [pow_succ] at h
    rw [powI_recurF, if_pos (by omega)]
    have h2 : 2 ^ n ≤ e / 2 := by omega
    simp only [IntTy.arith_unsigned ht, bind, Except.bind, ih _ _ _ h2, ite_self]

example : powI_recurF .ullint 63 3 1 (2 ^ 63) = .error .noReturn := C90_pow_depth_sharp _ rfl _ _ _ 63 le_rfl

/-- C90, `binomial_coef`: for `0 ≤ k ≤ n` the recursion makes exactly `2·C(n,k) - 1` calls. -/
theorem C90_binomial_calls (t : IntTy) (n k : ℕ) (h : k ≤ n) :
    (binomial_coef_count t n k).1 = binomial_coef_recur t n k ∧
    (binomial_coef_count t n k).2 + 1 = 2 * n.choose k := by
  induction n generalizing k with
  | zero =>
    obtain rfl : k = 0 := by omega
    rw [binomial_coef_count, binomial_coef_recur]; simp
  | succ n ih =>
    rw [binomial_coef_count, binomial_coef_recur]
    by_cases hk : k = 0 ∨ n + 1 = k
    · have hk' : (k:ℤ) = 0 ∨ ((n + 1 : ℕ) : ℤ) = k := by omega
      rw [if_pos hk', if_pos hk']
      refine ⟨rfl, ?_⟩
      rcases hk with rfl | rfl <;> simp
    · have hk' : ¬ ((k:ℤ) = 0 ∨ ((n + 1 : ℕ) : ℤ) = k) := by omega
      have hlo : ¬ (((n + 1 : ℕ) : ℤ) - 1 < t.lo ∨ (k:ℤ) - 1 < t.lo) := by
        have : t.lo ≤ 0 := by
          rcases t with ⟨⟨⟩, ⟨⟩⟩ <;> decide
        omega
      have hn0 : ¬ ((n + 1 : ℕ) : ℤ) = 0 := by omega
      rw [if_neg hk', if_neg hk', if_neg hn0, if_neg hn0, if_neg hlo, if_neg hlo]
      obtain ⟨l, rfl⟩ : ∃ l, k = l + 1 := ⟨k - 1, by omega⟩
      have e1 : ((n + 1 : ℕ) : ℤ) - 1 = n := by push_cast; ring
      have e2 : ((l + 1 : ℕ) : ℤ) - 1 = l := by push_cast; ring
      rw [e1, e2]
      obtain ⟨a1, a2⟩ := ih l (by omega)
      obtain ⟨b1, b2⟩ := ih (l + 1) (by omega)
      refine ⟨?_, ?_⟩
      · show ((binomial_coef_count t n l).1.bind fun x => (binomial_coef_count t n ((l + 1 : ℕ) : ℤ)).1.bind
          fun y => t.arith (x + y)) = _
        rw [a1, b1]; rfl
      · show 1 + (binomial_coef_count t n l).2 + (binomial_coef_count t n ((l + 1 : ℕ) : ℤ)).2 + 1 = _
        rw [Nat.choose_succ_succ']; omega

/-- `binomial_coef(30, 15)` makes 310235039 calls. -/
example : (binomial_coef_count .int (30:ℕ) (15:ℕ)).2 = 310235039 := by
  have h := (C90_binomial_calls .int 30 15 (by norm_num)).2
  have e : Nat.choose 30 15 = 155117520 := by
    rw [Nat.choose_eq_factorial_div_factorial (by norm_num)]; decide +kernel
  rw [e] at h
  generalize (binomial_coef_count .int ((30:ℕ):ℤ) ((15:ℕ):ℤ)).2 = c at h ⊢
  omega

end Props
end Gcem
