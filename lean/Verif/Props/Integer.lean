import Verif.IntLemmas
import Mathlib.Tactic.IntervalCases

/-!
# Properties of the integer functions (C01–C10)
-/

namespace Gcem
namespace Props
open IntTy

/-! ## C01 gcd -/

/-- C01.  For values `a`, `b` of integer types `s`, `t` (signed arguments different from the minimum of
their type), `gcd` returns, without undefined behaviour, the nonnegative common divisor that every
common divisor divides. -/
theorem C01_gcd_correct (s t : IntTy) (a b : ℤ) (ha : s.has a) (hb : t.has b)
    (hma : ¬ (s.signed = true ∧ a = s.lo)) (hmb : ¬ (t.signed = true ∧ b = t.lo)) :
    ∃ g, gcd s t a b = .ok g ∧ 0 ≤ g ∧ g ∣ a ∧ g ∣ b ∧ ∀ c, c ∣ a → c ∣ b → c ∣ g :=
  ⟨_, gcd_value ha hb hma hmb, by positivity, Int.gcd_dvd_left .., Int.gcd_dvd_right ..,
    fun _ h1 h2 => Int.dvd_coe_gcd h1 h2⟩

example : IntTy.int.has (-12) ∧ IntTy.uint.has 18 ∧ gcd .int .uint (-12) 18 = .ok 6 := by
  refine ⟨by decide, by decide, by decide +kernel⟩

/-- C01.  A signed argument equal to the minimum of its type makes `gcd` undefined. -/
theorem C01_gcd_undefined (s t : IntTy) (a b : ℤ)
    (h : (s.signed = true ∧ a = s.lo) ∨ (s.has a ∧ t.signed = true ∧ b = t.lo)) :
    gcd s t a b = .error .intOverflow := by
  unfold gcd gcd_type_check
  by_cases hsa : s.signed = true ∧ a = s.lo
  · rw [hsa.2, absI_ub hsa.1]; rfl
  · rcases h with h | ⟨ha, hb1, hb2⟩
    · exact absurd h hsa
    · rw [absI_ok ha hsa, hb2, absI_ub hb1]; rfl

example : gcd .int .int (-2147483648) 6 = .error .intOverflow := by decide +kernel

/-! ## C02 lcm -/

/-- The specification: `l` is the least common multiple of `a` and `b`. -/
def IsLcm (l a b : ℤ) : Prop :=
  0 ≤ l ∧ a ∣ l ∧ b ∣ l ∧ ∀ m, a ∣ m → b ∣ m → l ∣ m

theorem isLcm_lcm (a b : ℤ) : IsLcm (Int.lcm a b) a b :=
  ⟨by positivity, Int.dvd_lcm_left .., Int.dvd_lcm_right .., fun _ h1 h2 => Int.coe_lcm_dvd h1 h2⟩

theorem IsLcm.eq {l a b : ℤ} (h : IsLcm l a b) : l = Int.lcm a b := by
  have h2 := isLcm_lcm a b
  exact Int.dvd_antisymm h.1 h2.1 (h.2.2.2 _ h2.2.1 h2.2.2.1) (h2.2.2.2 _ h.2.1 h.2.2.1)

/-- The computation of `lcm` in one type. -/
private theorem lcm_steps {t : IntTy} {a b : ℤ} (ha : t.has a) (hb : t.has b)
    (hma : ¬ (t.signed = true ∧ a = t.lo)) (hmb : ¬ (t.signed = true ∧ b = t.lo))
    (h0 : ¬ (a = 0 ∧ b = 0)) :
    lcm t t a b = (t.arith (a * (b / Int.gcd a b)) >>= absI t) ∧
      |a * (b / Int.gcd a b)| = Int.lcm a b := by
  have hg : (Int.gcd a b : ℤ) ≠ 0 := by
    intro h
    exact h0 (Int.gcd_eq_zero_iff.mp (by exact_mod_cast h))
  have hgd : (Int.gcd a b : ℤ) ∣ b := Int.gcd_dvd_right ..
  have htd : b.tdiv (Int.gcd a b) = b / Int.gcd a b := Int.tdiv_eq_ediv_of_dvd hgd
  constructor
  · unfold lcm lcm_type_check lcm_compute
    rw [common_self, conv_of_has ha, conv_of_has hb, gcd_value ha hb hma hmb]
    show (t.idiv b (Int.gcd a b) >>= _) = _
    unfold idiv
    rw [if_neg hg, htd, arith_of_has]
    · rfl
    · obtain ⟨c, hc⟩ := hgd
      have hbc : b / (Int.gcd a b : ℤ) = c := by
        rw [Int.ediv_eq_of_eq_mul_right hg hc]
      rw [hbc]
      have hgp : 1 ≤ (Int.gcd a b : ℤ) := by omega
      have hl := t.lo_nonpos
      have hh := t.hi_ge
      unfold has at *
      rcases le_or_gt 0 c with h | h
      · have : c ≤ b := by rw [hc]; nlinarith
        omega
      · have : b ≤ c := by rw [hc]; nlinarith
        omega
  · have h1 := Int.gcd_mul_lcm a b
    have h1' : (Int.gcd a b : ℤ) * Int.lcm a b = |a| * |b| := by
      rw [Int.abs_eq_natAbs, Int.abs_eq_natAbs]; exact_mod_cast h1
    have hgp : 0 < (Int.gcd a b : ℤ) := by omega
    obtain ⟨c, hc⟩ := hgd
    have hbc : b / (Int.gcd a b : ℤ) = c := Int.ediv_eq_of_eq_mul_right hg hc
    rw [hbc, abs_mul]
    have h2 : |b| = (Int.gcd a b : ℤ) * |c| := by
      conv_lhs => rw [hc]
      rw [abs_mul, abs_of_pos hgp]
    rw [h2] at h1'
    have : (Int.gcd a b : ℤ) * Int.lcm a b = (Int.gcd a b : ℤ) * (|a| * |c|) := by rw [h1']; ring
    exact (mul_left_cancel₀ hg this).symm

private theorem lcm_common {s t : IntTy} {a b : ℤ} (ha : (common s t).has a)
    (hb : (common s t).has b) : lcm s t a b = lcm (common s t) (common s t) a b := by
  unfold lcm lcm_type_check
  rw [common_self, conv_of_has ha, conv_of_has hb]

/-- C02.  Let `c` be the common type of the arguments and suppose both arguments are values of `c`
(always true for two arguments of one type), not both zero and none the minimum of a signed `c`.
If their least common multiple fits in `c`, `lcm` returns it. -/
theorem C02_lcm_correct (s t : IntTy) (a b l : ℤ) (ha : (common s t).has a) (hb : (common s t).has b)
    (hma : ¬ ((common s t).signed = true ∧ a = (common s t).lo))
    (hmb : ¬ ((common s t).signed = true ∧ b = (common s t).lo))
    (h0 : ¬ (a = 0 ∧ b = 0)) (hl : IsLcm l a b) (hfit : (common s t).has l) :
    lcm s t a b = .ok l := by
  rw [lcm_common ha hb]
  generalize common s t = c at *
  obtain ⟨h1, h2⟩ := lcm_steps ha hb hma hmb h0
  rw [← hl.eq] at h2
  have hll := c.lo_nonpos
  have hnm : ¬ (c.signed = true ∧ a * (b / Int.gcd a b) = c.lo) := by
    rintro ⟨hs, he⟩
    have := lo_signed hs
    rw [he, abs_of_nonpos hll] at h2
    unfold has at hfit; omega
  by_cases hc : c.has (a * (b / Int.gcd a b))
  · rw [h1, arith_of_has hc]
    show absI c _ = _
    rw [absI_ok hc hnm, h2]
  · exfalso
    apply hc
    rcases le_or_gt 0 (a * (b / Int.gcd a b)) with h | h
    · rw [abs_of_nonneg h] at h2; rw [h2]; exact hfit
    · rw [abs_of_neg h] at h2
      by_cases hs : c.signed = true
      · have := lo_signed hs
        unfold has at *; omega
      · have hlo := lo_unsigned (t := c) (by simpa using hs)
        unfold has at ha hb
        have : 0 ≤ b / (Int.gcd a b : ℤ) := Int.ediv_nonneg (by omega) (by positivity)
        have : 0 ≤ a * (b / (Int.gcd a b : ℤ)) := mul_nonneg (by omega) this
        omega

example : IsLcm 36 (-12) 18 ∧ lcm .int .int (-12) 18 = .ok 36 :=
  ⟨by have := isLcm_lcm (-12) 18; rwa [show ((Int.lcm (-12) 18 : ℕ) : ℤ) = 36 by decide +kernel] at this,
    by decide +kernel⟩

/-- C02.  For a signed common type, an unrepresentable least common multiple is undefined behaviour. -/
theorem C02_lcm_overflow (s t : IntTy) (a b l : ℤ) (ha : (common s t).has a) (hb : (common s t).has b)
    (hs : (common s t).signed = true) (h0 : ¬ (a = 0 ∧ b = 0))
    (hl : IsLcm l a b) (hfit : ¬ (common s t).has l) :
    lcm s t a b = .error .intOverflow := by
  rw [lcm_common ha hb]
  generalize common s t = c at *
  by_cases hma : c.signed = true ∧ a = c.lo
  · unfold lcm lcm_type_check lcm_compute
    rw [common_self, conv_of_has ha, conv_of_has hb, C01_gcd_undefined _ _ _ _ (.inl hma)]; rfl
  by_cases hmb : c.signed = true ∧ b = c.lo
  · unfold lcm lcm_type_check lcm_compute
    rw [common_self, conv_of_has ha, conv_of_has hb, C01_gcd_undefined _ _ _ _ (.inr ⟨ha, hmb⟩)]; rfl
  obtain ⟨h1, h2⟩ := lcm_steps ha hb hma hmb h0
  rw [← hl.eq] at h2
  rw [h1]
  have hlo := lo_signed hs
  by_cases hc : c.has (a * (b / Int.gcd a b))
  · rw [arith_of_has hc]
    show absI c _ = _
    have he : a * (b / Int.gcd a b) = c.lo := by
      by_contra he
      exact hfit (h2 ▸ has_abs hc (by rintro ⟨_, h⟩; exact he h))
    rw [he, absI_ub hs]
  · rw [arith_signed_not hs hc]; rfl

example : ¬ IntTy.int.has (65536 * 32769) ∧ lcm .int .int 65536 32769 = .error .intOverflow := by
  refine ⟨by decide, by decide +kernel⟩

/-- C02.  For an unsigned common type, `lcm` returns the least common multiple modulo `2^w`. -/
theorem C02_lcm_unsigned (s t : IntTy) (a b l : ℤ) (ha : (common s t).has a) (hb : (common s t).has b)
    (hs : (common s t).signed = false) (h0 : ¬ (a = 0 ∧ b = 0)) (hl : IsLcm l a b) :
    lcm s t a b = .ok (l % 2 ^ (common s t).w.bits) := by
  rw [lcm_common ha hb]
  generalize common s t = c at *
  obtain ⟨h1, h2⟩ := lcm_steps ha hb (by simp [hs]) (by simp [hs]) h0
  rw [← hl.eq] at h2
  have hlo := lo_unsigned hs
  have hp : 0 ≤ a * (b / (Int.gcd a b : ℤ)) := by
    unfold has at ha hb
    have : 0 ≤ b / (Int.gcd a b : ℤ) := Int.ediv_nonneg (by omega) (by positivity)
    exact mul_nonneg (by omega) this
  rw [abs_of_nonneg hp] at h2
  rw [h1, h2, arith_unsigned hs]
  show absI c _ = _
  have h3 := has_conv c l
  rw [absI_ok h3 (by simp [hs]), abs_of_nonneg (by unfold has at h3; omega), conv_unsigned hs]
  rfl

/-- C02.  `lcm(0,0)` divides by zero. -/
theorem C02_lcm_zero_zero (s t : IntTy) : lcm s t 0 0 = .error .divByZero := by
  rw [lcm_common (has_zero _) (has_zero _)]
  generalize common s t = c
  unfold lcm lcm_type_check lcm_compute
  rw [common_self, conv_of_has c.has_zero,
    gcd_value c.has_zero c.has_zero]
  · rfl
  all_goals
    rintro ⟨hs, h⟩
    have := lo_signed hs
    have := c.hi_ge
    omega

/-! ## C03 mixed signedness -/

/-- C03.  With a negative signed argument and an unsigned one of at least the same width, `lcm` is
that of `a + 2^w`, not of `|a|`. -/
theorem C03_lcm_mixed (s t : IntTy) (a b : ℤ) (hs : s.signed = true) (ht : t.signed = false)
    (hw : s.w.bits ≤ t.w.bits) (_ha : s.has a) (_hneg : a < 0) (_hb : t.has b) :
    lcm s t a b = lcm t t (a + 2 ^ t.w.bits) b := by
  have hc : common s t = t := by
    rcases s with ⟨w, b⟩; rcases t with ⟨w', b'⟩
    simp only at hs ht; subst hs ht
    cases w <;> cases w' <;> first | rfl | (simp [Width.bits] at hw)
  unfold lcm lcm_type_check
  rw [hc, common_self]
  congr 1
  apply conv_eq_of_modEq
  unfold Int.ModEq mod
  simp

/-- C03.  `lcm(-4, 6u)` is `4294967292`, not `12`. -/
theorem C03_lcm_mixed_wrong :
    IntTy.int.has (-4) ∧ IntTy.uint.has 6 ∧ IsLcm 12 (-4) 6 ∧ IntTy.uint.has 12 ∧
      lcm .int .uint (-4) 6 = .ok 4294967292 := by
  refine ⟨by decide, by decide, ?_, by decide, by decide +kernel⟩
  have := isLcm_lcm (-4) 6
  rwa [show ((Int.lcm (-4) 6 : ℕ) : ℤ) = 12 by decide +kernel] at this

/-- C03.  For nonnegative arguments mixed signedness is harmless: the correctness theorem applies. -/
theorem C03_lcm_mixed_nonneg (s t : IntTy) (a b l : ℤ) (ha : s.has a) (hb : t.has b)
    (hna : 0 ≤ a) (hnb : 0 ≤ b) (h0 : ¬ (a = 0 ∧ b = 0)) (hl : IsLcm l a b)
    (hfit : (common s t).has l) : lcm s t a b = .ok l := by
  have hlo : ∀ x : ℤ, 0 ≤ x → ¬ ((common s t).signed = true ∧ x = (common s t).lo) := by
    rintro x hx ⟨hs, h⟩
    have := lo_signed hs
    have := (common s t).hi_ge
    omega
  exact C02_lcm_correct s t a b l (has_common_left hna ha) (has_common_right hnb hb) (hlo a hna)
    (hlo b hnb) h0 hl hfit

example : lcm .int .uint 4 6 = .ok 12 := by decide +kernel

/-! ## C04, C05 factorial -/

private theorem table_eq (t : IntTy) {n : ℤ} (h0 : 0 ≤ n) (h : n < 21) :
    factorial_table t n = t.conv (n.toNat.factorial) := by
  unfold factorial_table
  rcases t with ⟨w, s⟩
  interval_cases n <;> rfl

/-- C04.  Unsigned types: `n!` modulo `2^w`, for every `n`. -/
theorem C04_factorial_unsigned (t : IntTy) (n : ℕ) (hs : t.signed = false) :
    factorial t n = .ok ((n.factorial : ℤ) % 2 ^ t.w.bits) := by
  unfold factorial
  suffices h : factorial_recur t n = .ok (t.conv (n.factorial : ℤ)) by
    rw [h, conv_unsigned hs]; rfl
  induction n with
  | zero => unfold factorial_recur; rw [if_pos (by simp)]; rw [table_eq t (by simp) (by simp)]; rfl
  | succ k ih =>
    unfold factorial_recur
    split
    · next h => rw [table_eq t (by positivity) h]; rfl
    · have : ((k + 1 : ℕ) : ℤ) - 1 = k := by push_cast; ring
      rw [this, ih]
      show t.arith _ = _
      rw [arith_unsigned hs]
      congr 1
      apply conv_eq_of_modEq
      rw [Nat.factorial_succ]
      push_cast
      exact (conv_modEq t _).mul_left _

example : factorial .uint 13 = .ok 1932053504 ∧ (13).factorial % 2 ^ 32 = 1932053504 := by
  refine ⟨by decide +kernel, by decide +kernel⟩

/-- C04.  Any integer type: if `n!` is a value of the type, `factorial` returns it. -/
theorem C04_factorial_exact (t : IntTy) (n : ℕ) (hfit : t.has n.factorial) :
    factorial t n = .ok (n.factorial : ℤ) := by
  by_cases hn : n < 21
  · unfold factorial factorial_recur
    rw [if_pos (by exact_mod_cast hn), table_eq t (by positivity) (by exact_mod_cast hn)]
    rw [Int.toNat_natCast, conv_of_has hfit]
  · cases hs : t.signed
    · rw [C04_factorial_unsigned t n hs]
      have := conv_of_has hfit
      rw [conv_unsigned hs] at this
      exact congrArg _ this
    · exfalso
      have h1 : (21).factorial ≤ n.factorial := Nat.factorial_le (by omega)
      have h2 : t.hi < ((21).factorial : ℕ) := by
        rcases t with ⟨w, s⟩; simp only at hs; subst hs
        cases w <;> decide +kernel
      have h3 : (((21).factorial : ℕ) : ℤ) ≤ n.factorial := by exact_mod_cast h1
      unfold has at hfit; omega

example : IntTy.int.has (12).factorial ∧ factorial .int 12 = .ok 479001600 := by
  refine ⟨by decide +kernel, by decide +kernel⟩

/-- C04.  Signed types: undefined for every argument from 21 on. -/
theorem C04_factorial_signed_overflow (t : IntTy) (n : ℕ) (hs : t.signed = true) (hn : 21 ≤ n) :
    factorial t n = .error .intOverflow := by
  unfold factorial
  induction n, hn using Nat.le_induction with
  | base =>
    rcases t with ⟨w, s⟩; simp only at hs; subst hs
    cases w <;> decide +kernel
  | succ k hk ih =>
    unfold factorial_recur
    rw [if_neg (by push_cast; omega)]
    have : ((k + 1 : ℕ) : ℤ) - 1 = k := by push_cast; ring
    rw [this, ih]; rfl

example : factorial .llint 21 = .error .intOverflow := by decide +kernel

/-- C04.  For 32-bit `int`, arguments 13 to 20 return a wrong value: `n!` reduced modulo `2^32`
into the range of `int`. -/
theorem C04_factorial_int_wraps (n : ℕ) (h1 : 13 ≤ n) (h2 : n ≤ 20) :
    ∃ r, factorial .int n = .ok r ∧ IntTy.int.has r ∧ r ≡ n.factorial [ZMOD 2 ^ 32] ∧
      r ≠ n.factorial := by
  refine ⟨IntTy.int.conv n.factorial, ?_, has_conv _ _, conv_modEq _ _, ?_⟩
  · unfold factorial factorial_recur
    rw [if_pos (by omega), table_eq _ (by positivity) (by omega)]
    simp
  · interval_cases n <;> decide +kernel

example : factorial .int 13 = .ok 1932053504 := by decide +kernel

/-- C05.  A negative argument is not rejected: the result is `20!` converted to the type. -/
theorem C05_factorial_negative (t : IntTy) (n : ℤ) (h : n < 0) :
    factorial t n = .ok (t.conv (20).factorial) := by
  unfold factorial factorial_recur factorial_table
  rw [if_pos (by omega)]
  repeat rw [if_neg (by omega)]
  rfl

example : factorial .llint (-1) = .ok 2432902008176640000 ∧ factorial .int (-5) = .ok (-2102132736) := by
  refine ⟨by decide +kernel, by decide +kernel⟩

/-! ## C06, C07 binomial coefficients -/

/-- The specification: `C(n,k)` for `n ≥ 0`, zero for `k < 0`. -/
def choose (n k : ℤ) : ℤ := if k < 0 then 0 else (n.toNat.choose k.toNat : ℤ)

private theorem choose_pascal {n k : ℤ} (hn : 0 < n) (hk : k ≠ 0) :
    choose (n - 1) (k - 1) + choose (n - 1) k = choose n k := by
  unfold choose
  rcases lt_or_ge k 0 with h | h
  · rw [if_pos (by omega), if_pos h, if_pos h]; rfl
  · rw [if_neg (by omega), if_neg (by omega), if_neg (by omega)]
    obtain ⟨m, hm⟩ : ∃ m : ℕ, n = m + 1 := ⟨(n - 1).toNat, by omega⟩
    obtain ⟨j, hj⟩ : ∃ j : ℕ, k = j + 1 := ⟨(k - 1).toNat, by omega⟩
    subst hm hj
    have e1 : ((m : ℤ) + 1 - 1).toNat = m := by omega
    have e2 : ((j : ℤ) + 1 - 1).toNat = j := by omega
    have e3 : ((m : ℤ) + 1).toNat = m + 1 := by omega
    have e4 : ((j : ℤ) + 1).toNat = j + 1 := by omega
    rw [e1, e2, e3, e4, Nat.choose_succ_succ]
    push_cast; ring

private theorem choose_nonneg (n k : ℤ) : 0 ≤ choose n k := by
  unfold choose; split <;> positivity

private theorem choose_edge {n k : ℤ} (hn : 0 ≤ n) (h : k = 0 ∨ n = k) : choose n k = 1 := by
  unfold choose
  rcases h with h | h
  · subst h; simp
  · subst h; rw [if_neg (by omega)]; simp

private theorem choose_zero {k : ℤ} (h : k ≠ 0) : choose 0 k = 0 := by
  unfold choose
  split
  · rfl
  · have : k.toNat ≠ 0 := by omega
    obtain ⟨j, hj⟩ := Nat.exists_eq_succ_of_ne_zero this
    rw [hj]; simp

private theorem binom_signed (t : IntTy) (hs : t.signed = true) (m : ℕ) : ∀ n k : ℤ, n.toNat = m →
    0 ≤ n → t.lo ≤ k - n →
    binomial_coef_recur t n k = if t.has (choose n k) then .ok (choose n k) else .error .intOverflow := by
  have hlo := t.lo_nonpos
  have hhi := t.hi_ge
  induction m with
  | zero =>
    intro n k hm hn hk
    have : n = 0 := by omega
    subst this
    unfold binomial_coef_recur
    split
    · next h => rw [choose_edge le_rfl h, if_pos t.has_one]
    · next h =>
      have hk0 : k ≠ 0 := fun hh => h (.inl hh)
      rw [if_pos rfl, choose_zero hk0, if_pos t.has_zero]
  | succ m ih =>
    intro n k hm hn hk
    unfold binomial_coef_recur
    split
    · next h => rw [choose_edge hn h, if_pos t.has_one]
    · next h =>
      have hk0 : k ≠ 0 := fun hh => h (.inl hh)
      have hn0 : n ≠ 0 := by rintro rfl; simp at hm
      rw [if_neg hn0]
      have hp := choose_pascal (n := n) (k := k) (by omega) hk0
      have p1 := choose_nonneg (n - 1) (k - 1)
      have p2 := choose_nonneg (n - 1) k
      rw [if_neg (by omega), ih (n - 1) (k - 1) (by omega) (by omega) (by omega),
        ih (n - 1) k (by omega) (by omega) (by omega)]
      by_cases c1 : t.has (choose (n - 1) (k - 1))
      · rw [if_pos c1]
        by_cases c2 : t.has (choose (n - 1) k)
        · rw [if_pos c2]
          show t.arith _ = _
          rw [hp]
          by_cases c3 : t.has (choose n k)
          · rw [if_pos c3, arith_of_has c3]
          · rw [if_neg c3, arith_signed_not hs c3]
        · have c3 : ¬ t.has (choose n k) := by unfold has at *; omega
          rw [if_neg c2, if_neg c3]; rfl
      · have c3 : ¬ t.has (choose n k) := by unfold has at *; omega
        rw [if_neg c1, if_neg c3]; rfl

private theorem binom_unsigned (t : IntTy) (hs : t.signed = false) (m : ℕ) : ∀ n k : ℤ, n.toNat = m →
    0 ≤ n → 0 ≤ k → binomial_coef_recur t n k = .ok (t.conv (choose n k)) := by
  have hlo := lo_unsigned hs
  induction m with
  | zero =>
    intro n k hm hn hk
    have : n = 0 := by omega
    subst this
    unfold binomial_coef_recur
    split
    · next h => rw [choose_edge le_rfl h, conv_of_has t.has_one]
    · next h =>
      have hk0 : k ≠ 0 := fun hh => h (.inl hh)
      rw [if_pos rfl, choose_zero hk0, conv_of_has t.has_zero]
  | succ m ih =>
    intro n k hm hn hk
    unfold binomial_coef_recur
    split
    · next h => rw [choose_edge hn h, conv_of_has t.has_one]
    · next h =>
      have hk0 : k ≠ 0 := fun hh => h (.inl hh)
      have hn0 : n ≠ 0 := by rintro rfl; simp at hm
      rw [if_neg hn0]
      have hp := choose_pascal (n := n) (k := k) (by omega) hk0
      rw [if_neg (by omega), ih (n - 1) (k - 1) (by omega) (by omega) (by omega),
        ih (n - 1) k (by omega) (by omega) (by omega)]
      show t.arith _ = _
      rw [arith_unsigned hs]
      congr 1
      apply conv_eq_of_modEq
      rw [← hp]
      exact (conv_modEq t _).add (conv_modEq t _)

/-- C06.  Signed common type `c`, arguments that are values of `c`, `n ≥ 0`: the result is `C(n,k)`
(which is 0 for `k > n` and for `k < 0`) if that fits and undefined otherwise.  (For negative `k` the
recursion needs `k - n` to stay in range.) -/
theorem C06_binomial_signed (s t : IntTy) (n k : ℤ) (hs : (common s t).signed = true)
    (hn : (common s t).has n) (hk : (common s t).has k) (h0 : 0 ≤ n) (hkn : (common s t).lo ≤ k - n) :
    binomial_coef s t n k =
      if (common s t).has (choose n k) then .ok (choose n k) else .error .intOverflow := by
  unfold binomial_coef binomial_coef_check
  rw [conv_of_has hn, conv_of_has hk]
  exact binom_signed _ hs _ n k rfl h0 hkn

example : choose 10 3 = 120 ∧ binomial_coef .int .int 10 3 = .ok 120 := by
  refine ⟨by decide +kernel, by decide +kernel⟩
example : ¬ IntTy.int.has (choose 40 20) := by decide +kernel

/-- C06.  Unsigned common type: `C(n,k)` modulo `2^w`. -/
theorem C06_binomial_unsigned (s t : IntTy) (n k : ℤ) (hs : (common s t).signed = false)
    (hn : (common s t).has n) (hk : (common s t).has k) :
    binomial_coef s t n k = .ok (choose n k % 2 ^ (common s t).w.bits) := by
  have hlo := lo_unsigned hs
  unfold binomial_coef binomial_coef_check
  rw [conv_of_has hn, conv_of_has hk]
  unfold has at hn hk
  rw [binom_unsigned _ hs _ n k rfl (by omega) (by omega), conv_unsigned hs]
  rfl

example : binomial_coef .uint .uint 10 3 = .ok 120 := by decide +kernel

/-- C06.  For negative `k` with `k - n` below the minimum the call is undefined. -/
theorem C06_binomial_negative_k (s t : IntTy) (n k : ℤ) (hs : (common s t).signed = true)
    (hn : (common s t).has n) (hk : (common s t).has k) (h0 : 0 ≤ n) (hk0 : k < 0)
    (hkn : k - n < (common s t).lo) :
    binomial_coef s t n k = .error .intOverflow := by
  unfold binomial_coef binomial_coef_check
  rw [conv_of_has hn, conv_of_has hk]
  generalize common s t = c at *
  obtain ⟨m, hm⟩ : ∃ m : ℕ, n.toNat = m := ⟨_, rfl⟩
  induction m generalizing n k with
  | zero => exfalso; unfold has at hk; omega
  | succ m ih =>
    unfold binomial_coef_recur
    rw [if_neg (by omega), if_neg (by omega)]
    split
    · rfl
    · next h =>
      have h2 := ih (n - 1) (k - 1) (by first | omega | (unfold has at *; omega)) (by first | omega | (unfold has at *; omega)) (by first | omega | (unfold has at *; omega)) (by first | omega | (unfold has at *; omega))
        (by first | omega | (unfold has at *; omega)) (by first | omega | (unfold has at *; omega))
      rw [h2]
      rfl

example : binomial_coef .int .int 1 (-2147483648) = .error .intOverflow := by decide +kernel

private theorem binom_err (t : IntTy) (n k : ℤ) (e : UB) (h : binomial_coef_recur t n k = .error e) :
    e = .intOverflow := by
  induction n, k using binomial_coef_recur.induct t with
  | case1 n k h1 => unfold binomial_coef_recur at h; rw [if_pos h1] at h; simp at h
  | case2 k h1 => unfold binomial_coef_recur at h; rw [if_neg h1, if_pos rfl] at h; simp at h
  | case3 n k h1 h2 h3 =>
    unfold binomial_coef_recur at h; rw [if_neg h1, if_neg h2, if_pos h3] at h
    injection h with h; exact h.symm
  | case4 n k h1 h2 h3 ih1 ih2 =>
    unfold binomial_coef_recur at h; rw [if_neg h1, if_neg h2, if_neg h3] at h
    rcases ha : binomial_coef_recur t (n - 1) (k - 1) with e' | a
    · rw [ha] at h
      injection h with h; subst h; exact ih1 ha
    · rcases hb : binomial_coef_recur t (n - 1) k with e' | b
      · rw [ha, hb] at h
        injection h with h; subst h; exact ih2 hb
      · rw [ha, hb] at h
        change t.arith (a + b) = _ at h
        unfold arith at h
        split_ifs at h
        injection h with h; exact h.symm

/-- C07.  A negative `n` (with `k ≠ 0`, `k ≠ n`) never returns a value: the recursion runs into
signed overflow. -/
theorem C07_binomial_negative_n (s t : IntTy) (n k : ℤ) (hs : (common s t).signed = true)
    (hn : (common s t).has n) (hk : (common s t).has k) (h0 : n < 0) (hk0 : k ≠ 0) (hnk : n ≠ k) :
    binomial_coef s t n k = .error .intOverflow := by
  unfold binomial_coef binomial_coef_check
  rw [conv_of_has hn, conv_of_has hk]
  generalize common s t = c at *
  obtain ⟨m, hm⟩ : ∃ m : ℕ, (n - c.lo).toNat = m := ⟨_, rfl⟩
  induction m generalizing n k with
  | zero =>
    unfold binomial_coef_recur
    rw [if_neg (by omega), if_neg (by omega), if_pos (by unfold has at hn; omega)]
  | succ m ih =>
    unfold binomial_coef_recur
    rw [if_neg (by omega), if_neg (by omega)]
    split
    · rfl
    · next h =>
      rcases lt_or_gt_of_ne hk0 with hkk | hkk
      · have h2 := ih (n - 1) (k - 1) (by first | omega | (unfold has at *; omega)) (by first | omega | (unfold has at *; omega)) (by first | omega | (unfold has at *; omega))
          (by first | omega | (unfold has at *; omega)) (by first | omega | (unfold has at *; omega)) (by first | omega | (unfold has at *; omega))
        rw [h2]
        rfl
      · have h2 := ih (n - 1) k (by first | omega | (unfold has at *; omega)) (by first | omega | (unfold has at *; omega)) (by first | omega | (unfold has at *; omega))
          (by first | omega | (unfold has at *; omega)) (by first | omega | (unfold has at *; omega)) (by first | omega | (unfold has at *; omega))
        rw [h2]
        -- the left call may return or not; the sum is undefined either way
        rcases h3 : binomial_coef_recur c (n - 1) (k - 1) with e | v
        · rw [binom_err c _ _ _ h3]; rfl
        · rfl

end Props
end Gcem
