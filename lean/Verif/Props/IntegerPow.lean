import Verif.IntLemmas
import Mathlib.Tactic.IntervalCases
import Mathlib.Tactic.Positivity
import Mathlib.Algebra.Order.Ring.Abs

/-!
# Properties of integer powers and integer abs/sgn/max/min (C08, C09, C10, parts of C13, C14)
-/

namespace Gcem
namespace Props
open IntTy

/-! ## Helper lemmas -/

private theorem is_odd_iff (e : ℤ) : is_odd e = true ↔ e % 2 = 1 := by
  unfold is_odd; simp only [bne_iff_ne]; omega

private theorem pow_step_odd {b v : ℤ} {e : ℤ} (h : 1 < e) (ho : is_odd e = true) :
    v * b * (b * b) ^ (e / 2).toNat = v * b ^ e.toNat := by
  rw [is_odd_iff] at ho
  have : e.toNat = 2 * (e / 2).toNat + 1 := by omega
  rw [this, pow_succ, pow_mul]; ring

private theorem pow_step_even {b v : ℤ} {e : ℤ} (h : 1 < e) (ho : ¬ is_odd e = true) :
    v * (b * b) ^ (e / 2).toNat = v * b ^ e.toNat := by
  rw [is_odd_iff] at ho
  have : e.toNat = 2 * (e / 2).toNat := by omega
  rw [this, pow_mul]; ring

private theorem bind_ok {α β : Type} {x : Res α} {k : α → Res β} {b : β} (h : (x >>= k) = .ok b) :
    ∃ a, x = .ok a ∧ k a = .ok b := by
  cases x with
  | error e => simp [bind, Except.bind] at h
  | ok a => exact ⟨a, rfl, h⟩

private theorem bind_err {α β : Type} {x : Res α} {k : α → Res β} {e : UB} (h : (x >>= k) = .error e) :
    x = .error e ∨ ∃ a, x = .ok a ∧ k a = .error e := by
  cases x with
  | error e' => left; simpa [bind, Except.bind] using h
  | ok a => exact .inr ⟨a, rfl, h⟩

private theorem arith_ok {t : IntTy} {n r : ℤ} (hs : t.signed = true) (h : t.arith n = .ok r) :
    r = n ∧ t.has n := by
  unfold arith at h
  simp only [hs, if_true] at h
  split at h
  · injection h with h; exact ⟨h.symm, by assumption⟩
  · simp at h

private theorem arith_err {t : IntTy} {n : ℤ} {e : UB} (h : t.arith n = .error e) :
    e = .intOverflow := by
  unfold arith at h
  split_ifs at h
  injection h with h; exact h.symm

/-- signed: if the recursion returns, the result is the mathematical product -/
private theorem powI_recur_sound (t : IntTy) (hs : t.signed = true) (b v e r : ℤ) (he : 0 ≤ e)
    (h : powI_recur t b v e = .ok r) : r = v * b ^ e.toNat := by
  induction b, v, e using powI_recur.induct with
  | case1 b v e h1 h2 ih =>
    unfold powI_recur at h
    rw [if_pos h1, if_pos h2] at h
    obtain ⟨bb, hb, h⟩ := bind_ok h
    obtain ⟨vv, hv, h⟩ := bind_ok h
    obtain ⟨rfl, _⟩ := arith_ok hs hb
    obtain ⟨rfl, _⟩ := arith_ok hs hv
    rw [ih _ _ (by omega) h, pow_step_odd h1 h2]
  | case2 b v e h1 h2 ih =>
    unfold powI_recur at h
    rw [if_pos h1, if_neg h2] at h
    obtain ⟨bb, hb, h⟩ := bind_ok h
    obtain ⟨rfl, _⟩ := arith_ok hs hb
    rw [ih _ (by omega) h, pow_step_even h1 h2]
  | case3 b v h1 =>
    unfold powI_recur at h
    rw [if_neg h1, if_pos rfl] at h
    obtain ⟨rfl, _⟩ := arith_ok hs h
    simp
  | case4 b v e h1 h2 =>
    unfold powI_recur at h
    rw [if_neg h1, if_neg h2] at h
    injection h with h
    have : e = 0 := by omega
    subst this; simp [h]

private theorem powI_recur_err (t : IntTy) (b v e : ℤ) (u : UB)
    (h : powI_recur t b v e = .error u) : u = .intOverflow := by
  induction b, v, e using powI_recur.induct with
  | case1 b v e h1 h2 ih =>
    unfold powI_recur at h
    rw [if_pos h1, if_pos h2] at h
    rcases bind_err h with h | ⟨bb, _, h⟩
    · exact arith_err h
    · rcases bind_err h with h | ⟨vv, _, h⟩
      · exact arith_err h
      · exact ih _ _ h
  | case2 b v e h1 h2 ih =>
    unfold powI_recur at h
    rw [if_pos h1, if_neg h2] at h
    rcases bind_err h with h | ⟨bb, _, h⟩
    · exact arith_err h
    · exact ih _ h
  | case3 b v h1 =>
    unfold powI_recur at h
    rw [if_neg h1, if_pos rfl] at h
    exact arith_err h
  | case4 b v e h1 h2 =>
    unfold powI_recur at h
    rw [if_neg h1, if_neg h2] at h
    simp at h

private theorem powI_recur_unsigned (t : IntTy) (hs : t.signed = false) (b v e : ℤ) (he : 0 ≤ e)
    (hv : t.has v) : powI_recur t b v e = .ok (t.conv (v * b ^ e.toNat)) := by
  induction b, v, e using powI_recur.induct with
  | case1 b v e h1 h2 ih =>
    unfold powI_recur
    rw [if_pos h1, if_pos h2, arith_unsigned hs, arith_unsigned hs]
    show powI_recur t (t.conv (b * b)) (t.conv (v * b)) (e / 2) = _
    rw [ih _ _ (by omega) (has_conv _ _)]
    congr 1
    apply conv_eq_of_modEq
    rw [← pow_step_odd h1 h2]
    exact (conv_modEq t _).mul ((conv_modEq t _).pow _)
  | case2 b v e h1 h2 ih =>
    unfold powI_recur
    rw [if_pos h1, if_neg h2, arith_unsigned hs]
    show powI_recur t (t.conv (b * b)) v (e / 2) = _
    rw [ih _ (by omega) hv]
    congr 1
    apply conv_eq_of_modEq
    rw [← pow_step_even h1 h2]
    exact ((conv_modEq t _).pow _).mul_left _
  | case3 b v h1 =>
    unfold powI_recur
    rw [if_neg h1, if_pos rfl, arith_unsigned hs]
    simp
  | case4 b v e h1 h2 =>
    unfold powI_recur
    rw [if_neg h1, if_neg h2]
    have : e = 0 := by omega
    subst this
    simp [conv_of_has hv]

/-- `2^(w-1)` is not a square: a square that is at most `hi+1` is at most `hi`. -/
private theorem sq_le_hi {t : IntTy} (hs : t.signed = true) {b : ℤ} (h : b * b ≤ t.hi + 1) :
    b * b ≤ t.hi := by
  by_contra hc
  have he : b * b = t.hi + 1 := by omega
  rcases t with ⟨w, s⟩
  simp only at hs; subst hs
  wlog hb : 0 ≤ b generalizing b
  · exact this (b := -b) (by linarith) (by linarith) (by linarith) (by omega)
  cases w
  · have e1 : (⟨.w32, true⟩ : IntTy).hi + 1 = 2147483648 := by decide
    rw [e1] at he
    have l : b < 46341 := by nlinarith
    have g : 46340 < b := by nlinarith
    omega
  · have e1 : (⟨.w64, true⟩ : IntTy).hi + 1 = 9223372036854775808 := by decide
    rw [e1] at he
    have l : b < 3037000500 := by nlinarith
    have g : 3037000499 < b := by nlinarith
    omega

private theorem abs_le_mul_pow {x b : ℤ} {n : ℕ} (hb : 1 ≤ |b|) : |x| ≤ |x * b ^ n| := by
  rw [abs_mul, abs_pow]
  have : 1 ≤ |b| ^ n := one_le_pow₀ hb
  nlinarith [abs_nonneg x]

/-- signed: if the result fits, no intermediate overflows -/
private theorem powI_recur_complete (t : IntTy) (hs : t.signed = true) (b v e : ℤ) (he : 0 ≤ e)
    (hv1 : |b| ≤ 1 → |v| ≤ 1) (hv0 : b ≠ 0 → v ≠ 0) (hfit : t.has (v * b ^ e.toNat)) :
    powI_recur t b v e = .ok (v * b ^ e.toNat) := by
  have hlo := lo_signed hs
  have hhi := t.hi_ge
  have hsq : ∀ (b v : ℤ) (m : ℕ), 1 ≤ m → t.has (v * (b * b) ^ m) → (b ≠ 0 → v ≠ 0) →
      t.has (b * b) := by
    intro b v m hm hf hv
    have h : |v * (b * b) ^ m| ≤ t.hi + 1 := by unfold has at hf; rw [abs_le]; omega
    have h1 : |b * b| ≤ t.hi + 1 := by
      by_cases hb : b = 0
      · subst hb; simp; omega
      · have hb1 : 1 ≤ |b * b| := Int.one_le_abs (mul_ne_zero hb hb)
        have hv1 : 1 ≤ |v| := Int.one_le_abs (hv hb)
        have h2 : |b * b| ≤ |b * b| ^ m := le_self_pow₀ hb1 (by omega)
        rw [abs_mul, abs_pow] at h
        nlinarith
    rw [abs_of_nonneg (mul_self_nonneg b)] at h1
    have h2 := sq_le_hi hs h1
    have h3 := mul_self_nonneg b
    unfold has; omega
  have hsmall : ∀ b : ℤ, |b * b| ≤ 1 → |b| ≤ 1 := by
    intro b h
    rw [abs_mul] at h
    by_contra hc
    nlinarith
  induction b, v, e using powI_recur.induct with
  | case1 b v e h1 h2 ih =>
    unfold powI_recur
    rw [if_pos h1, if_pos h2]
    rw [← pow_step_odd h1 h2] at hfit ⊢
    have hvb0 : b ≠ 0 → v * b ≠ 0 := fun h => mul_ne_zero (hv0 h) h
    have hbb : t.has (b * b) := hsq b (v * b) _ (by omega) hfit hvb0
    have hvb1 : |b| ≤ 1 → |v * b| ≤ 1 := by
      intro h
      rw [abs_mul]
      have := hv1 h
      nlinarith [abs_nonneg v, abs_nonneg b]
    have hvb : t.has (v * b) := by
      by_cases hb : |b| ≤ 1
      · have := hvb1 hb
        rw [abs_le] at this
        unfold has; omega
      · have h3 : |v * b| * 2 ≤ |v * b * (b * b) ^ (e / 2).toNat| := by
          rw [abs_mul (v * b), abs_pow, abs_mul b]
          have h4 : 2 ≤ |b| * |b| := by nlinarith
          have h5 : |b| * |b| ≤ (|b| * |b|) ^ (e / 2).toNat := le_self_pow₀ (by omega) (by omega)
          exact mul_le_mul_of_nonneg_left (h4.trans h5) (abs_nonneg _)
        have h6 : |v * b * (b * b) ^ (e / 2).toNat| ≤ t.hi + 1 := by
          unfold has at hfit; rw [abs_le]; omega
        have h7 : |v * b| ≤ t.hi := by omega
        rw [abs_le] at h7
        unfold has; omega
    rw [arith_of_has hbb, arith_of_has hvb]
    exact ih (b * b) (v * b) (by omega) (fun h => hvb1 (hsmall b h))
      (fun h => hvb0 (left_ne_zero_of_mul h)) hfit
  | case2 b v e h1 h2 ih =>
    unfold powI_recur
    rw [if_pos h1, if_neg h2]
    rw [← pow_step_even h1 h2] at hfit ⊢
    have hbb : t.has (b * b) := hsq b v _ (by omega) hfit hv0
    rw [arith_of_has hbb]
    exact ih (b * b) (by omega) (fun h => hv1 (hsmall b h))
      (fun h => hv0 (left_ne_zero_of_mul h)) hfit
  | case3 b v h1 =>
    unfold powI_recur
    rw [if_neg h1, if_pos rfl]
    have : (1 : ℤ).toNat = 1 := rfl
    rw [this, pow_one] at hfit ⊢
    exact arith_of_has hfit
  | case4 b v e h1 h2 =>
    unfold powI_recur
    rw [if_neg h1, if_neg h2]
    have : e = 0 := by omega
    subst this; simp

/-! ## C08 -/

theorem powI_nonneg_signed (t te : IntTy) (hs : t.signed = true) (b e : ℤ) (hb : t.has b)
    (he : 0 ≤ e) (hne : e ≠ te.hi) :
    powI_nonneg t te b e =
      if t.has (b ^ e.toNat) then .ok (b ^ e.toNat) else .error .intOverflow := by
  have hlo := te.lo_nonpos
  have hhi := te.hi_ge
  unfold powI_nonneg
  have hlos := lo_signed hs
  have hhis := t.hi_ge
  split
  · next h =>
    subst h
    have e3 : b ^ (3 : ℤ).toNat = b * b * b := by
      show b ^ 3 = _; ring
    rw [e3]
    by_cases h2 : t.has (b * b)
    · rw [arith_of_has h2]
      show t.arith (b * b * b) = _
      split
      · next h => exact arith_of_has h
      · next h => exact arith_signed_not hs h
    · rw [arith_signed_not hs h2, if_neg]
      · rfl
      · intro h3
        apply h2
        have hm : b * b ≤ t.hi + 1 := by
          by_cases hb0 : b = 0
          · subst hb0; omega
          · have h4 : |b * b| ≤ |b * b * b| := by
              rw [abs_mul (b * b)]
              have : 1 ≤ |b| := Int.one_le_abs hb0
              nlinarith [abs_nonneg (b * b)]
            have h5 : |b * b * b| ≤ t.hi + 1 := by unfold has at h3; rw [abs_le]; omega
            have h6 := le_abs_self (b * b)
            omega
        have h7 := sq_le_hi hs hm
        have h8 := mul_self_nonneg b
        unfold has; omega
  split
  · next h =>
    subst h
    have e2 : b ^ (2 : ℤ).toNat = b * b := by show b ^ 2 = _; ring
    rw [e2]
    split
    · next h => exact arith_of_has h
    · next h => exact arith_signed_not hs h
  split
  · next h => subst h; simp [hb]
  split
  · next h => subst h; simp [t.has_one]
  rw [if_neg (by omega)]
  split
  · next h =>
    have := powI_recur_complete t hs b 1 e he (by simp) (by simp) (by simpa using h)
    simpa using this
  · next h =>
    rcases hr : powI_recur t b 1 e with u | r
    · rw [powI_recur_err _ _ _ _ _ hr]
    · exfalso
      have h1 := powI_recur_sound t hs b 1 e r he hr
      rw [one_mul] at h1
      -- a returned value is a value of the type
      have hret : ∀ (b v e r : ℤ), 0 ≤ e → t.has v → powI_recur t b v e = .ok r → t.has r := by
        intro b v e
        induction b, v, e using powI_recur.induct with
        | case1 b v e h1 h2 ih =>
          intro r he hv h
          unfold powI_recur at h
          rw [if_pos h1, if_pos h2] at h
          obtain ⟨bb, hb, h⟩ := bind_ok h
          obtain ⟨vv, hvv, h⟩ := bind_ok h
          obtain ⟨rfl, hv'⟩ := arith_ok hs hvv
          exact ih _ _ _ (by omega) hv' h
        | case2 b v e h1 h2 ih =>
          intro r he hv h
          unfold powI_recur at h
          rw [if_pos h1, if_neg h2] at h
          obtain ⟨bb, hb, h⟩ := bind_ok h
          exact ih _ _ (by omega) hv h
        | case3 b v h1 =>
          intro r he hv h
          unfold powI_recur at h
          rw [if_neg h1, if_pos rfl] at h
          obtain ⟨rfl, h'⟩ := arith_ok hs h
          exact h'
        | case4 b v e h1 h2 =>
          intro r he hv h
          unfold powI_recur at h
          rw [if_neg h1, if_neg h2] at h
          injection h with h; subst h; exact hv
      exact h (h1 ▸ hret b 1 e r he t.has_one hr)

theorem powI_nonneg_unsigned (t te : IntTy) (hs : t.signed = false) (b e : ℤ) (hb : t.has b)
    (he : 0 ≤ e) (hne : e ≠ te.hi) :
    powI_nonneg t te b e = .ok (t.conv (b ^ e.toNat)) := by
  have hlo := te.lo_nonpos
  unfold powI_nonneg
  split
  · next h =>
    subst h
    rw [arith_unsigned hs]
    show t.arith _ = _
    rw [arith_unsigned hs]
    congr 1
    apply conv_eq_of_modEq
    have e3 : b ^ (3 : ℤ).toNat = b * b * b := by show b ^ 3 = _; ring
    rw [e3]
    exact (conv_modEq t _).mul_right _
  split
  · next h =>
    subst h
    have e2 : b ^ (2 : ℤ).toNat = b * b := by show b ^ 2 = _; ring
    rw [e2, arith_unsigned hs]
  split
  · next h => subst h; simp [conv_of_has hb]
  split
  · next h => subst h; simp [conv_of_has t.has_one]
  rw [if_neg (by omega)]
  have := powI_recur_unsigned t hs b 1 e he t.has_one
  simpa using this

/-- C08.  Integer base of a signed type `t`, exponent `e ≥ 0` of type `te` other than the maximum:
`pow` is undefined iff `b^e` is not a value of `t`; otherwise it is `b^e`, converted to the common
type that `pow` returns (the identity whenever `te` is not an unsigned type of at least the width of `t`
or `b^e ≥ 0`). -/
theorem C08_pow_int_signed (t te : IntTy) (hs : t.signed = true) (b e : ℤ) (hb : t.has b)
    (he : 0 ≤ e) (hne : e ≠ te.hi) :
    powI t te b e = if t.has (b ^ e.toNat) then .ok ((common t te).conv (b ^ e.toNat))
      else .error .intOverflow := by
  unfold powI powI_compute
  rw [if_neg (by omega), powI_nonneg_signed t te hs b e hb he hne]
  split <;> rfl

/-- C08 for equal types: exactly `b^e` when representable, undefined otherwise. -/
theorem C08_pow_int_same_type (t : IntTy) (hs : t.signed = true) (b e : ℤ) (hb : t.has b)
    (he : 0 ≤ e) (hne : e ≠ t.hi) :
    powI t t b e = if t.has (b ^ e.toNat) then .ok (b ^ e.toNat) else .error .intOverflow := by
  rw [C08_pow_int_signed t t hs b e hb he hne, common_self]
  split
  · next h => rw [conv_of_has h]
  · rfl

example : powI .int .int (-2) 31 = .ok (-2147483648) ∧ IntTy.int.has ((-2) ^ 31) := by
  refine ⟨by decide +kernel, by decide⟩
example : powI .int .int 2 31 = .error .intOverflow := by decide +kernel

/-- C08.  Unsigned base: `b^e` modulo `2^w` of the base type, converted to the common type. -/
theorem C08_pow_int_unsigned (t te : IntTy) (hs : t.signed = false) (b e : ℤ) (hb : t.has b)
    (he : 0 ≤ e) (hne : e ≠ te.hi) :
    powI t te b e = .ok ((common t te).conv (b ^ e.toNat % 2 ^ t.w.bits)) := by
  unfold powI powI_compute
  rw [if_neg (by omega), powI_nonneg_unsigned t te hs b e hb he hne, conv_unsigned hs]
  rfl

example : powI .uint .int 3 21 = .ok (3 ^ 21 % 2 ^ 32) := by decide +kernel

/-! ## C09 -/

/-- C09.  With the maximal exponent every base gives 0 (so `pow(1, max)` is 0 instead of 1). -/
theorem C09_pow_exp_max (t te : IntTy) (b : ℤ) : powI t te b te.hi = .ok 0 := by
  have h1 := te.hi_ge
  have h2 := te.lo_nonpos
  have h0 := conv_of_has (has_zero (common t te))
  unfold powI powI_compute powI_nonneg
  rw [if_neg (by omega), if_neg (by omega), if_neg (by omega), if_neg (by omega), if_neg (by omega),
    if_neg (by omega), if_pos rfl]
  show Except.ok _ = _
  rw [h0]

theorem C09_pow_one_max_wrong (t te : IntTy) :
    powI t te 1 te.hi = .ok 0 ∧ (1 : ℤ) ^ te.hi.toNat = 1 := ⟨C09_pow_exp_max t te 1, one_pow _⟩

/-- C09.  With the minimal exponent of a signed type every base gives 0 (also `pow(1, min)`). -/
theorem C09_pow_exp_min (t te : IntTy) (b : ℤ) (hs : te.signed = true) :
    powI t te b te.lo = .ok 0 := by
  have h1 := te.hi_ge
  have h2 := lo_signed hs
  have h0 := conv_of_has (has_zero (common t te))
  unfold powI powI_compute
  rw [if_pos (by omega), if_pos rfl]
  show Except.ok _ = _
  rw [h0]

/-- C09.  Base 0 with a negative exponent (other than the minimum) divides by zero. -/
theorem C09_pow_zero_neg (t te : IntTy) (e : ℤ) (he : e < 0) (hlo : te.lo < e) :
    powI t te 0 e = .error .divByZero := by
  have h1 := te.hi_ge
  have hs : te.signed = true := by
    by_contra hs
    have := lo_unsigned (t := te) (by simpa using hs)
    omega
  have h2 := lo_signed hs
  have hz : powI_nonneg t te 0 (-e) = .ok 0 := by
    by_cases hm : -e = te.hi
    · unfold powI_nonneg
      rw [if_neg (by omega), if_neg (by omega), if_neg (by omega), if_neg (by omega),
        if_neg (by omega), if_pos hm]
    · have hp : (0 : ℤ) ^ (-e).toNat = 0 := zero_pow (by omega)
      cases ht : t.signed
      · rw [powI_nonneg_unsigned t te ht 0 (-e) t.has_zero (by omega) hm, hp, conv_of_has t.has_zero]
      · rw [powI_nonneg_signed t te ht 0 (-e) t.has_zero (by omega) hm, hp, if_pos t.has_zero]
  unfold powI powI_compute
  rw [if_pos he, if_neg (by omega), hz]
  rfl

example : powI .int .int 0 (-3) = .error .divByZero := by decide +kernel

/-- C09.  Exponent `-max` divides by zero for every base, even `pow(1, -max)`. -/
theorem C09_pow_neg_max (t te : IntTy) (b : ℤ) (hs : te.signed = true) :
    powI t te b (-te.hi) = .error .divByZero := by
  have h1 := te.hi_ge
  have h2 := lo_signed hs
  unfold powI powI_compute powI_nonneg
  rw [if_pos (by omega), if_neg (by omega), if_neg (by omega), if_neg (by omega), if_neg (by omega),
    if_neg (by omega), if_neg (by omega), if_pos (by omega)]
  rfl

/-! ## C10 -/

/-- C10.  Negative exponents truncate the reciprocal: with `b^|e|` representable in the base type,
the result is 0 for `|b| ≥ 2`, `1` for `b = 1` and `(-1)^|e|` for `b = -1` (converted to the common
type). -/
theorem C10_pow_int_negative (t te : IntTy) (b e : ℤ) (hb : t.has b) (he : e < 0) (hlo : te.lo < e)
    (hmax : -e ≠ te.hi) (hb0 : b ≠ 0) (hfit : t.has (b ^ (-e).toNat)) :
    powI t te b e = .ok ((common t te).conv
      (if b = 1 then 1 else if b = -1 then (-1) ^ (-e).toNat else 0)) := by
  have hp : powI_nonneg t te b (-e) = .ok (b ^ (-e).toNat) := by
    cases ht : t.signed
    · rw [powI_nonneg_unsigned t te ht b (-e) hb (by omega) hmax, conv_of_has hfit]
    · rw [powI_nonneg_signed t te ht b (-e) hb (by omega) hmax, if_pos hfit]
  unfold powI powI_compute
  rw [if_pos he, if_neg (by omega), hp]
  show (t.idiv 1 (b ^ (-e).toNat) >>= _) = _
  unfold idiv
  rw [if_neg (pow_ne_zero _ hb0)]
  have key : (1 : ℤ).tdiv (b ^ (-e).toNat) =
      (if b = 1 then 1 else if b = -1 then (-1) ^ (-e).toNat else 0) := by
    split
    · next h => subst h; simp
    split
    · next h =>
      subst h
      rcases neg_one_pow_eq_or ℤ (-e).toNat with h | h <;> rw [h] <;> rfl
    · next h1 h2 =>
      have hbig : 2 ≤ (b ^ (-e).toNat).natAbs := by
        rw [Int.natAbs_pow]
        have h3 : 2 ≤ b.natAbs := by omega
        calc 2 ≤ b.natAbs := h3
          _ ≤ b.natAbs ^ (-e).toNat := Nat.le_self_pow (by omega) _
      have h4 : ((1 : ℤ).tdiv (b ^ (-e).toNat)).natAbs = 0 := by
        rw [Int.natAbs_tdiv]
        exact Nat.div_eq_of_lt (by show 1 < _; omega)
      omega
  rw [key, arith_of_has]
  · rfl
  · split
    · exact t.has_one
    split
    · next h => rw [← h]; exact hfit
    · exact t.has_zero

example : powI .int .int (-1) (-3) = .ok (-1) ∧ powI .int .int 2 (-3) = .ok 0 := by
  refine ⟨by decide +kernel, by decide +kernel⟩

/-! ## C13, C14: integer abs, sgn, max, min -/

/-- C13 (integers).  `abs` is the absolute value except at the signed minimum, where it is undefined. -/
theorem C13_abs_int (t : IntTy) (x : ℤ) (hx : t.has x) :
    absI t x = if t.signed = true ∧ x = t.lo then .error .intOverflow else .ok |x| := by
  split
  · next h => rw [h.2, absI_ub h.1]
  · next h => exact absI_ok hx h

example : absI .int (-5) = .ok 5 ∧ absI .int (-2147483648) = .error .intOverflow := by
  refine ⟨by decide +kernel, by decide +kernel⟩

/-- C13 (integers).  `sgn` is the sign. -/
theorem C13_sgn_int (x : ℤ) : sgnI x * |x| = x ∧ (sgnI x = -1 ∨ sgnI x = 0 ∨ sgnI x = 1) := by
  unfold sgnI
  rcases lt_trichotomy x 0 with h | h | h
  · rw [if_neg (by omega), if_pos h, abs_of_neg h]; simp
  · subst h; simp
  · rw [if_pos h, abs_of_pos h]; simp

/-- C14 (integers).  When both arguments are values of the common type (e.g. equal types, or any
nonnegative arguments), `max` and `min` are the mathematical maximum and minimum. -/
theorem C14_max_min_int (s t : IntTy) (x y : ℤ) (hx : (common s t).has x) (hy : (common s t).has y) :
    maxI s t x y = max x y ∧ minI s t x y = min x y := by
  unfold maxI minI
  simp only [conv_of_has hx, conv_of_has hy]
  constructor
  · split <;> omega
  · split <;> omega

/-- C14 (integers).  Mixed signedness: `max(-1, 1u)` is `4294967295` and `min(-1, 1u)` is `1`. -/
theorem C14_max_min_mixed_wrong :
    maxI .int .uint (-1) 1 = 4294967295 ∧ minI .int .uint (-1) 1 = 1 := by
  refine ⟨by decide +kernel, by decide +kernel⟩

example : maxI .int .llint (-1) 3 = 3 := by decide +kernel

end Props
end Gcem
