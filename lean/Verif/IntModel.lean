import Verif.Fp.Format
import Mathlib.Data.Nat.Factorial.Basic

/-!
# C++ integer types and the integer functions of gcem

Integer types of rank at least `int` under LP64: `int`, `unsigned` (32 bits), `long`, `long long`,
`unsigned long`, `unsigned long long` (64 bits).  A value is its mathematical integer.
Signed overflow is undefined behaviour, unsigned arithmetic wraps, conversion to a narrower or
differently signed type is modulo `2^w` (implementation-defined before C++20, and what every
supported compiler does).
-/

namespace Gcem

/-- Width of an integer type of rank ≥ `int`. -/
inductive Width | w32 | w64
  deriving DecidableEq, Repr

def Width.bits : Width → ℕ | .w32 => 32 | .w64 => 64

structure IntTy where
  w : Width
  signed : Bool
  deriving DecidableEq, Repr

namespace IntTy

abbrev int : IntTy := ⟨.w32, true⟩
abbrev uint : IntTy := ⟨.w32, false⟩
/-- `long` and `long long` -/
abbrev llint : IntTy := ⟨.w64, true⟩
/-- `unsigned long` and `unsigned long long` -/
abbrev ullint : IntTy := ⟨.w64, false⟩

/-- number of values, `2^bits` -/
def mod (t : IntTy) : ℤ := 2 ^ t.w.bits
/-- `std::numeric_limits<T>::min()` -/
def lo (t : IntTy) : ℤ := if t.signed then -2 ^ (t.w.bits - 1) else 0
/-- `std::numeric_limits<T>::max()` -/
def hi (t : IntTy) : ℤ := if t.signed then 2 ^ (t.w.bits - 1) - 1 else 2 ^ t.w.bits - 1

/-- `n` is a value of the type. -/
def has (t : IntTy) (n : ℤ) : Prop := t.lo ≤ n ∧ n ≤ t.hi

instance (t : IntTy) (n : ℤ) : Decidable (t.has n) := by unfold has; infer_instance

/-- Conversion of an integer to the type: the unique value of the type congruent modulo `2^w`. -/
def conv (t : IntTy) (n : ℤ) : ℤ := (n - t.lo) % t.mod + t.lo

/-- Result of an arithmetic operation whose mathematical result is `n`. -/
def arith (t : IntTy) (n : ℤ) : Res ℤ :=
  if t.signed then (if t.has n then .ok n else .error .intOverflow) else .ok (t.conv n)

/-- Integer division `a / b` (truncating). -/
def idiv (t : IntTy) (a b : ℤ) : Res ℤ :=
  if b = 0 then .error .divByZero else t.arith (a.tdiv b)

/-- `std::common_type` of two integer types (usual arithmetic conversions, LP64). -/
def common (s t : IntTy) : IntTy :=
  match s.w, t.w with
  | .w32, .w64 => t
  | .w64, .w32 => s
  | w, _ => ⟨w, s.signed && t.signed⟩

end IntTy

open IntTy

/-! ## abs.hpp -/

/-- abs.hpp:31-43 `abs(x)` for an integer type. -/
def absI (t : IntTy) (x : ℤ) : Res ℤ :=
  if x = 0 then .ok 0 else if x < 0 then t.arith (-x) else .ok x

/-- sgn.hpp:31-43 `sgn(x)` for an integer type. -/
def sgnI (x : ℤ) : ℤ := if 0 < x then 1 else if x < 0 then -1 else 0

/-! ## max.hpp, min.hpp -/

/-- max.hpp:32-39 for integer types `s`, `t`: the comparison `y < x` is done in the common type,
and so is the result. -/
def maxI (s t : IntTy) (x y : ℤ) : ℤ :=
  let c := common s t
  if c.conv y < c.conv x then c.conv x else c.conv y

/-- min.hpp:32-39 for integer types. -/
def minI (s t : IntTy) (x y : ℤ) : ℤ :=
  let c := common s t
  if c.conv y > c.conv x then c.conv x else c.conv y

/-! ## is_odd.hpp, is_even.hpp -/

/-- is_odd.hpp:31-38: `(x & 1U) != 0`, on `long long`; the lowest bit of two's complement. -/
def is_odd (x : ℤ) : Bool := x % 2 != 0
/-- is_even.hpp:31-37 -/
def is_even (x : ℤ) : Bool := !is_odd x

/-! ## gcd.hpp -/

/-- gcd.hpp:27-34 `gcd_recur(a,b) = b == 0 ? a : gcd_recur(b, a % b)`; the only undefined
case of `%` besides a zero divisor is `min % -1`. -/
def gcd_recur (t : IntTy) (a b : ℤ) : Res ℤ :=
  if b = 0 then .ok a
  else if t.signed ∧ a = t.lo ∧ b = -1 then .error .intOverflow
  else gcd_recur t b (a.tmod b)
termination_by b.natAbs
decreasing_by
  rw [Int.natAbs_tmod]
  exact Nat.mod_lt _ (by omega)

/-- gcd.hpp:36-43 `gcd_int_check` (integral `T`). -/
def gcd_int_check (t : IntTy) (a b : ℤ) : Res ℤ := gcd_recur t a b

/-- gcd.hpp:54-61 `gcd_type_check`: `abs` in the original types, then conversion to the common type. -/
def gcd_type_check (s t : IntTy) (a b : ℤ) : Res ℤ := do
  let a' ← absI s a
  let b' ← absI t b
  gcd_int_check (common s t) ((common s t).conv a') ((common s t).conv b')

/-- gcd.hpp:73-80 `gcd`. -/
def gcd (s t : IntTy) (a b : ℤ) : Res ℤ := gcd_type_check s t a b

/-! ## lcm.hpp -/

/-- lcm.hpp:27-34 `abs(a * (b / gcd(a,b)))`. -/
def lcm_compute (t : IntTy) (a b : ℤ) : Res ℤ := do
  let g ← gcd t t a b
  let q ← t.idiv b g
  let p ← t.arith (a * q)
  absI t p

/-- lcm.hpp:36-43 `lcm_type_check`: conversion to the common type first. -/
def lcm_type_check (s t : IntTy) (a b : ℤ) : Res ℤ :=
  lcm_compute (common s t) ((common s t).conv a) ((common s t).conv b)

/-- lcm.hpp:56-63 `lcm`. -/
def lcm (s t : IntTy) (a b : ℤ) : Res ℤ := lcm_type_check s t a b

/-! ## factorial.hpp -/

/-- factorial.hpp:33-56: the table, every entry converted to `T`. -/
def factorial_table (t : IntTy) (x : ℤ) : ℤ :=
  if x = 0 then t.conv 1 else if x = 1 then t.conv 1 else
  if x = 2 then t.conv 2 else if x = 3 then t.conv 6 else
  if x = 4 then t.conv 24 else if x = 5 then t.conv 120 else
  if x = 6 then t.conv 720 else if x = 7 then t.conv 5040 else
  if x = 8 then t.conv 40320 else if x = 9 then t.conv 362880 else
  if x = 10 then t.conv 3628800 else
  if x = 11 then t.conv 39916800 else
  if x = 12 then t.conv 479001600 else
  if x = 13 then t.conv 6227020800 else
  if x = 14 then t.conv 87178291200 else
  if x = 15 then t.conv 1307674368000 else
  if x = 16 then t.conv 20922789888000 else
  if x = 17 then t.conv 355687428096000 else
  if x = 18 then t.conv 6402373705728000 else
  if x = 19 then t.conv 121645100408832000 else
    t.conv 2432902008176640000

/-- factorial.hpp:58-69 `factorial_recur` (integral `T`); `x - 1` cannot overflow since `x ≥ 21`. -/
def factorial_recur (t : IntTy) (x : ℤ) : Res ℤ :=
  if x < 21 then .ok (factorial_table t x)
  else do
    let r ← factorial_recur t (x - 1)
    t.arith (x * r)
termination_by x.toNat
decreasing_by omega

/-- factorial.hpp:91-98 `factorial`. -/
def factorial (t : IntTy) (x : ℤ) : Res ℤ := factorial_recur t x

/-! ## binomial_coef.hpp -/

/-- binomial_coef.hpp:27-38 `binomial_coef_recur`.  At the recursive calls `n ≠ 0` and `k ≠ 0`, so for
unsigned types `n-1` and `k-1` do not wrap; for signed types going below the minimum is undefined. -/
def binomial_coef_recur (t : IntTy) (n k : ℤ) : Res ℤ :=
  if k = 0 ∨ n = k then .ok 1
  else if n = 0 then .ok 0
  else if n - 1 < t.lo ∨ k - 1 < t.lo then .error .intOverflow
  else do
    let a ← binomial_coef_recur t (n - 1) (k - 1)
    let b ← binomial_coef_recur t (n - 1) k
    t.arith (a + b)
termination_by (n - t.lo).toNat
decreasing_by all_goals omega

/-- binomial_coef.hpp:40-47 `binomial_coef_check` (integral `T`). -/
def binomial_coef_check (t : IntTy) (n k : ℤ) : Res ℤ := binomial_coef_recur t n k

/-- binomial_coef.hpp:61-68 and 82-89: conversion to the common type. -/
def binomial_coef (s t : IntTy) (n k : ℤ) : Res ℤ :=
  binomial_coef_check (common s t) ((common s t).conv n) ((common s t).conv k)

/-! ## pow_integral.hpp, integer base -/

/-- pow_integral.hpp:37-48 `pow_integral_compute_recur`, base of integer type `t`.
`exp_term/2` is exact integer division of a nonnegative number. -/
def powI_recur (t : IntTy) (base val e : ℤ) : Res ℤ :=
  if 1 < e then
    if is_odd e then do
      let bb ← t.arith (base * base)
      let v ← t.arith (val * base)
      powI_recur t bb v (e / 2)
    else do
      let bb ← t.arith (base * base)
      powI_recur t bb val (e / 2)
  else if e = 1 then t.arith (val * base) else .ok val
termination_by e.toNat
decreasing_by all_goals omega

/-- pow_integral.hpp:72-93 `pow_integral_compute` together with `pow_integral_sgn_check` (50-70), for an
exponent that is known to be nonnegative (the recursive call of the signed version passes `-exp_term`).
`GCLIM<T1>::infinity()` is `T1()`, i.e. `0`, for an integer `T1`. -/
def powI_nonneg (t te : IntTy) (base e : ℤ) : Res ℤ :=
  if e = 3 then do
    let p ← t.arith (base * base)
    t.arith (p * base)
  else if e = 2 then t.arith (base * base)
  else if e = 1 then .ok base
  else if e = 0 then .ok 1
  else if e = te.lo then .ok 0
  else if e = te.hi then .ok 0
  else powI_recur t base 1 e

/-- pow_integral.hpp:50-93: `pow_integral_compute` for an exponent of type `te`; the negative branch is
`T1(1) / pow_integral_compute(base, - exp_term)`, reached only if `exp_term ≠ min`, so that the
negation does not overflow. -/
def powI_compute (t te : IntTy) (base e : ℤ) : Res ℤ :=
  if e < 0 then
    if e = te.lo then .ok 0
    else do
      let p ← powI_nonneg t te base (-e)
      t.idiv 1 p
  else powI_nonneg t te base e

/-- pow_integral.hpp:95-124 and pow.hpp:53-80: `pow(base, exp_term)` with integer arguments; the result,
of the type of the base, is converted to the common type. -/
def powI (t te : IntTy) (base e : ℤ) : Res ℤ := do
  let r ← powI_compute t te base e
  return (common t te).conv r

end Gcem
