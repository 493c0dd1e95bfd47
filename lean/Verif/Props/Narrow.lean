import Verif.Model.Narrow
import Verif.Props.Integer
import Verif.Props.IntegerPow
import Verif.Fp.Value

/-!
# C89: integer types narrower than int
-/

namespace Gcem.Props

open FV Gcem.IntTy

theorem narrow_range (t : NarrowTy) : -2 ^ 15 ≤ t.lo ∧ t.lo ≤ 0 ∧ 127 ≤ t.hi ∧ t.hi ≤ 2 ^ 16 - 1 ∧ t.hi = t.lo + 2 ^ t.bits - 1 := by
  rcases t with ⟨_ | _, _ | _⟩ <;> decide

theorem narrow_int {t : NarrowTy} {n : ℤ} (h : t.has n) : IntTy.int.has n := by
  obtain ⟨h1, h2, h3, h4, h5⟩ := narrow_range t
  unfold NarrowTy.has at h
  show (-2 ^ 31 : ℤ) ≤ n ∧ n ≤ (2 ^ 31 - 1 : ℤ)
  constructor <;> linarith [h.1, h.2]

theorem narrow_conv_of_has {t : NarrowTy} {n : ℤ} (h : t.has n) : t.conv n = n := by
  obtain ⟨h1, h2, h3, h4, h5⟩ := narrow_range t
  unfold NarrowTy.has at h
  unfold NarrowTy.conv
  rw [Int.emod_eq_of_lt (by omega) (by omega)]; omega

theorem narrow_conv_spec (t : NarrowTy) (n : ℤ) : t.has (t.conv n) ∧ t.conv n ≡ n [ZMOD 2 ^ t.bits] := by
  obtain ⟨h1, h2, h3, h4, h5⟩ := narrow_range t
  have hm : (0:ℤ) < 2 ^ t.bits := by positivity
  constructor
  · unfold NarrowTy.has NarrowTy.conv
    have h1 := Int.emod_nonneg (n - t.lo) hm.ne'
    have h2 := Int.emod_lt_of_pos (n - t.lo) hm
    omega
  · unfold NarrowTy.conv
    have : (n - t.lo) % 2 ^ t.bits ≡ n - t.lo [ZMOD 2 ^ t.bits] := Int.mod_modEq _ _
    have h2 := this.add_right t.lo
    simpa using h2

/-- C89: `abs` of a narrow type is never undefined; at the lowest value of a signed type it returns that (negative)
value itself. -/
theorem C89_abs (t : NarrowTy) (x : ℤ) (hx : t.has x) :
    absN t x = .ok (if t.signed = true ∧ x = t.lo then t.lo else |x|) := by
  have hb := narrow_range t
  have hlo : t.signed = true → t.hi = -t.lo - 1 := by rcases t with ⟨_ | _, _ | _⟩ <;> decide
  have hun : t.signed = false → t.lo = 0 := by rcases t with ⟨_ | _, _ | _⟩ <;> decide
  have hx' := narrow_int hx
  obtain ⟨h1, h2, h3, h4, h5⟩ := hb
  unfold NarrowTy.has at hx
  unfold absN
  by_cases h0 : x = 0
  · subst h0
    rw [if_pos rfl, if_neg]
    · show Except.ok (t.conv 0) = _
      rw [narrow_conv_of_has]
      · simp
      · unfold NarrowTy.has; omega
    · rintro ⟨hs, h⟩; have := hlo hs; omega
  · rw [if_neg h0]
    by_cases hn : x < 0
    · have hs : t.signed = true := by
        by_contra hs
        have := hun (by simpa using hs)
        omega
      have := hlo hs
      have hi : IntTy.int.has (-x) := by
        show (-2 ^ 31 : ℤ) ≤ -x ∧ -x ≤ (2 ^ 31 - 1 : ℤ)
        constructor <;> linarith [hx.1, hx.2]
      rw [if_pos hn, arith_of_has hi]
      show Except.ok (t.conv (-x)) = _
      by_cases hl : x = t.lo
      · rw [if_pos ⟨hs, hl⟩, hl]
        congr 1
        unfold NarrowTy.conv
        rw [show -t.lo - t.lo = 2 ^ t.bits by linarith, Int.emod_self, zero_add]
      · rw [if_neg (fun h => hl h.2), narrow_conv_of_has, abs_of_neg hn]
        unfold NarrowTy.has
        omega
    · rw [if_neg hn, if_neg]
      · show Except.ok (t.conv x) = _
        rw [narrow_conv_of_has hx, abs_of_nonneg (by omega)]
      · rintro ⟨hs, h⟩; have := hlo hs; omega

example : absN ⟨true, true⟩ (-32768) = .ok (-32768) ∧ absN ⟨false, true⟩ (-5) = .ok 5 ∧
    (⟨true, true⟩ : NarrowTy).has (-32768) := by decide +kernel

theorem factorialN_table_eq (t : NarrowTy) (n : ℕ) (h : n < 21) : factorialN_table t n = t.conv n.factorial := by
  interval_cases n <;> rfl

/-- C89: the factorial at a narrow type: below 21 it is the value modulo `2^bits`; from 21 on it is a signed overflow,
also for the unsigned types (where wrapping around would be expected). -/
theorem C89_factorial (t : NarrowTy) (n : ℕ) :
    factorialN t n = if n < 21 then .ok (t.conv n.factorial) else .error .intOverflow := by
  unfold factorialN
  by_cases h : n < 21
  · rw [if_pos (by exact_mod_cast h), if_pos h, factorialN_table_eq t n h]
  · rw [if_neg (by exact_mod_cast h), if_neg h]
    obtain ⟨m, rfl⟩ : ∃ m, n = m + 1 := ⟨n - 1, by omega⟩
    rcases eq_or_lt_of_le (show 20 ≤ m by omega) with h1 | h1
    · subst h1
      have e : factorial_recur int (((20 + 1 : ℕ) : ℤ) - 1) = .ok (-2102132736) := by decide +kernel
      rw [e]; rfl
    · have := C04_factorial_signed_overflow .int m rfl (by omega)
      unfold factorial at this
      push_cast
      rw [add_sub_cancel_right, this]; rfl

example : factorialN ⟨false, false⟩ 6 = .ok 208 ∧ factorialN ⟨true, false⟩ 21 = .error .intOverflow ∧
    factorial .uint 21 = .ok 3099852800 := by
  refine ⟨by decide +kernel, C89_factorial ⟨true, false⟩ 21, ?_⟩
  rw [show (21 : ℤ) = ((21 : ℕ) : ℤ) from rfl, C04_factorial_unsigned .uint 21 rfl]; decide +kernel

/-- C89: binomial coefficients at a narrow type: the sum is formed in `int`, overflow of `int` is undefined, and a result that fits
`int` but not the type is reduced modulo `2^bits`. -/
theorem C89_binomial (t : NarrowTy) (n k : ℤ) (hn : t.has n) (hk : t.has k) (h0 : 0 ≤ n) :
    binomial_coefN t n k = if IntTy.int.has (choose n k) then .ok (t.conv (choose n k)) else .error .intOverflow := by
  have hb := narrow_range t
  have key : binomial_coef .int .int n k = if IntTy.int.has (choose n k) then .ok (choose n k) else .error .intOverflow := by
    have := C06_binomial_signed .int .int n k rfl (narrow_int hn) (narrow_int hk) h0 (by
      unfold NarrowTy.has at hn hk
      show (-2 ^ 31 : ℤ) ≤ k - n
      linarith [hn.2, hk.1, hb.1, hb.2.2.2.1])
    exact this
  have e : binomial_coefN t n k = (binomial_coef .int .int n k).bind fun r => .ok (t.conv r) := by
    have h1 : t.conv 1 = 1 := narrow_conv_of_has (by unfold NarrowTy.has; omega)
    have h2 : t.conv 0 = 0 := narrow_conv_of_has (by unfold NarrowTy.has; omega)
    unfold binomial_coef binomial_coef_check
    have hc : common IntTy.int IntTy.int = IntTy.int := rfl
    rw [hc, conv_of_has (narrow_int hn), conv_of_has (narrow_int hk)]
    unfold binomial_coefN
    conv_rhs => rw [binomial_coef_recur]
    by_cases g1 : k = 0 ∨ n = k
    · rw [if_pos g1, if_pos g1]; show _ = Except.ok (t.conv 1); rw [h1]
    rw [if_neg g1, if_neg g1]
    by_cases g2 : n = 0
    · rw [if_pos g2, if_pos g2]; show _ = Except.ok (t.conv 0); rw [h2]
    rw [if_neg g2, if_neg g2, if_neg]
    · rcases binomial_coef_recur IntTy.int (n - 1) (k - 1) with _ | a
      · rfl
      · rcases binomial_coef_recur IntTy.int (n - 1) k with _ | b
        · rfl
        · rfl
    · unfold NarrowTy.has at hn hk
      show ¬ (n - 1 < (-2 ^ 31 : ℤ) ∨ k - 1 < (-2 ^ 31 : ℤ))
      have := hb.1
      omega
  rw [e, key]
  split <;> rfl

example : binomial_coefN ⟨false, true⟩ 10 5 = .ok (-4) ∧ choose 10 5 = 252 ∧ (⟨false, true⟩ : NarrowTy).has 10 := by
  decide +kernel

/-- C89: a floating base with an exponent of a narrow type.  The largest exponent of the type gives `+inf` and the smallest
of a signed type gives 0, for every base (NaN, 1 and 1/2 included); all others agree with the exponent type `int`. -/
theorem C89_pow {f : Fmt} (t : NarrowTy) (x : FV f) :
    pow_integral_narrow t x t.hi = inf false ∧
    (t.signed = true → pow_integral_narrow t x t.lo = fin 0 false) ∧
    (∀ e, t.has e → e ≠ t.hi → (t.signed = true → e ≠ t.lo) → pow_integral_narrow t x e = pow_integral_int x e) := by
  obtain ⟨h1, h2, h3, h4, h5⟩ := narrow_range t
  refine ⟨?_, ?_, ?_⟩
  · unfold pow_integral_narrow pow_integral_nonneg
    rw [if_neg (by omega), if_neg (by omega), if_neg (by omega), if_neg (by omega), if_neg (by omega), if_pos rfl]
    rfl
  · intro hs
    have : t.lo < 0 := by rcases t with ⟨_ | _, _ | _⟩ <;> simp_all <;> decide
    unfold pow_integral_narrow
    rw [if_pos this, if_pos rfl, FV.i_zero]
  · intro e he hhi hlo
    unfold NarrowTy.has at he
    have hun : t.signed = false → t.lo = 0 := by rcases t with ⟨_ | _, _ | _⟩ <;> decide
    unfold pow_integral_narrow pow_integral_int pow_integral_compute
    by_cases hn : e < 0
    · have hs : t.signed = true := by
        by_contra hs
        have := hun (by simpa using hs)
        omega
      rw [if_pos hn, if_pos hn, if_neg (hlo hs), if_neg (by omega)]
    · rw [if_neg hn, if_neg hn]
      unfold pow_integral_nonneg
      split
      · rfl
      split
      · rfl
      split
      · rfl
      split
      · rfl
      rw [if_neg (by omega), if_neg (by omega)]

/-- C89: so `pow(0.5, (signed char)127)` is infinite while `pow(0.5, 127)` is `2^-127`. -/
theorem C89_pow_witness : pow_integral_narrow ⟨false, true⟩ (fin (1 / 2) false : FV binary64) 127 = inf false ∧
    pow_integral_int (fin (1 / 2) false : FV binary64) 127 = fin (1 / 2 ^ 127) false := by decide +kernel

/-- C89: the same with an integer base, where the result at the largest exponent is 0. -/
theorem C89_powI (tb : IntTy) (t : NarrowTy) (b : ℤ) :
    powIN tb t b t.hi = .ok 0 ∧ (t.signed = true → powIN tb t b t.lo = .ok 0) ∧
    (∀ e, t.has e → tb.has b → 0 ≤ e → e ≠ t.hi → powIN tb t b e =
      if tb.signed = false then .ok (b ^ e.toNat % 2 ^ tb.w.bits)
      else if tb.has (b ^ e.toNat) then .ok (b ^ e.toNat) else .error .intOverflow) := by
  obtain ⟨h1, h2, h3, h4, h5⟩ := narrow_range t
  refine ⟨?_, ?_, ?_⟩
  · unfold powIN
    rw [if_neg (by omega), if_pos ⟨by omega, rfl⟩]
  · intro hs
    have : t.lo < 0 := by rcases t with ⟨_ | _, _ | _⟩ <;> simp_all <;> decide
    unfold powIN
    rw [if_pos this, if_pos rfl]
  · intro e he hb h0 hhi
    unfold NarrowTy.has at he
    have h6 : e ≠ IntTy.int.hi := by
      show e ≠ (2 ^ 31 - 1 : ℤ); intro h; norm_num at h4; omega
    unfold powIN
    rw [if_neg (by omega), if_neg (fun h => hhi h.2)]
    cases hs : tb.signed
    · rw [powI_nonneg_unsigned tb .int hs b e hb h0 h6, conv_unsigned hs]; rfl
    · rw [powI_nonneg_signed tb .int hs b e hb h0 h6]; simp

example : powIN .int ⟨false, true⟩ 1 127 = .ok 0 ∧ powIN .int ⟨false, true⟩ (-2) 31 = .ok (-2147483648) ∧
    powIN .uint ⟨false, false⟩ 3 40 = .ok (3 ^ 40 % 2 ^ 32) := by decide +kernel

end Gcem.Props
