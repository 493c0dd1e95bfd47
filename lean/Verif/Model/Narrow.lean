import Verif.IntModel
import Verif.Model.Elem

/-!
# Integer types narrower than int

`signed char`, `unsigned char`, `short`, `unsigned short`.  Every operand of such a type is promoted to `int` before
an arithmetic operation; the result is converted back only where a value of the narrow type is returned.  A function
template called recursively with a promoted argument is instantiated with `int` from there on.

`gcd` and `lcm` of two arguments of one narrow type, and `pow` with a base of a narrow type, do not compile: in
gcd.hpp:33 and pow_integral.hpp:46 one template parameter is deduced as the narrow type and as `int` in the same call.
They are not modelled.
-/

namespace Gcem

open FV IntTy

/-- An integer type narrower than `int`: `wide = false` is 8 bits, `true` is 16 bits. -/
structure NarrowTy where
  wide : Bool
  signed : Bool
  deriving DecidableEq, Repr

namespace NarrowTy
def bits (t : NarrowTy) : ℕ := if t.wide then 16 else 8
/-- `std::numeric_limits<T>::min()` -/
def lo (t : NarrowTy) : ℤ := if t.signed then -2 ^ (t.bits - 1) else 0
/-- `std::numeric_limits<T>::max()` -/
def hi (t : NarrowTy) : ℤ := if t.signed then 2 ^ (t.bits - 1) - 1 else 2 ^ t.bits - 1
def has (t : NarrowTy) (n : ℤ) : Prop := t.lo ≤ n ∧ n ≤ t.hi
instance (t : NarrowTy) (n : ℤ) : Decidable (t.has n) := by unfold has; infer_instance
/-- conversion to the type: modulo `2^bits` -/
def conv (t : NarrowTy) (n : ℤ) : ℤ := (n - t.lo) % 2 ^ t.bits + t.lo
end NarrowTy

/-- abs.hpp:31-43: `- x` is an `int`, converted back to `T` on return. -/
def absN (t : NarrowTy) (x : ℤ) : Res ℤ := do
  let y ← if x = 0 then .ok 0 else if x < 0 then int.arith (-x) else .ok x
  .ok (t.conv y)

/-- factorial.hpp:33-55 `factorial_table` at a narrow type -/
def factorialN_table (t : NarrowTy) (x : ℤ) : ℤ :=
  if x = 0 then t.conv 1 else if x = 1 then t.conv 1 else
  if x = 2 then t.conv 2 else if x = 3 then t.conv 6 else
  if x = 4 then t.conv 24 else if x = 5 then t.conv 120 else
  if x = 6 then t.conv 720 else if x = 7 then t.conv 5040 else
  if x = 8 then t.conv 40320 else if x = 9 then t.conv 362880 else
  if x = 10 then t.conv 3628800 else
  if x = 11 then t.conv 39916800 else
  if x = 12 then t.conv 479001600 else
  if x = 13 then t.conv 6227020800 else
  if x = 14 then t.conv 87178291200 else
  if x = 15 then t.conv 1307674368000 else
  if x = 16 then t.conv 20922789888000 else
  if x = 17 then t.conv 355687428096000 else
  if x = 18 then t.conv 6402373705728000 else
  if x = 19 then t.conv 121645100408832000 else
  t.conv 2432902008176640000

/-- factorial.hpp:57-69: the recursive call has an argument of type `int`. -/
def factorialN (t : NarrowTy) (x : ℤ) : Res ℤ :=
  if x < 21 then .ok (factorialN_table t x)
  else do
    let r ← factorial_recur int (x - 1)
    let p ← int.arith (x * r)
    .ok (t.conv p)

/-- binomial_coef.hpp:27-38, both arguments of one narrow type: the two recursive calls have `int` arguments. -/
def binomial_coefN (t : NarrowTy) (n k : ℤ) : Res ℤ :=
  if k = 0 ∨ n = k then .ok 1
  else if n = 0 then .ok 0
  else do
    let a ← binomial_coef_recur int (n - 1) (k - 1)
    let b ← binomial_coef_recur int (n - 1) k
    let s ← int.arith (a + b)
    .ok (t.conv s)

/-- pow_integral.hpp:50-93, floating base and an exponent of a narrow type.  `- exp_term` is an `int`, so the negative
branch continues with the exponent type `int`. -/
def pow_integral_narrow {f : Fmt} (t : NarrowTy) (base : FV f) (e : ℤ) : FV f :=
  if e < 0 then
    if e = t.lo then i 0
    else i 1 / pow_integral_nonneg base (-e).toNat (2 ^ 31 - 1)
  else pow_integral_nonneg base e.toNat t.hi.toNat

/-- pow_integral.hpp:50-93 and pow.hpp:53-80, base of the integer type `tb` and an exponent of a narrow type.  The
common type is `tb`. -/
def powIN (tb : IntTy) (t : NarrowTy) (base e : ℤ) : Res ℤ :=
  if e < 0 then
    if e = t.lo then .ok 0
    else do
      let p ← powI_nonneg tb int base (-e)
      tb.idiv 1 p
  else if 3 < e ∧ e = t.hi then .ok 0
  else powI_nonneg tb int base e

end Gcem
