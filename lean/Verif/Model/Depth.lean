import Verif.IntModel

/-!
# Counting nested calls

The recursive functions on integers once more, with the number of nested calls that may still be made as an extra
argument (`noReturn` once it is used up), and `binomial_coef_recur` with a count of all calls.  A constant
expression may nest calls only to the compiler's limit (`-fconstexpr-depth`, 512 by default).  `mantissa`,
`find_exponent`, `sqrt_simplify` and `tgamma_check` already carry this argument (`Model/Elem.lean`,
`Model/Special.lean`).
-/

namespace Gcem

/-- gcd.hpp:27-34 with at most `fuel` nested calls -/
def gcd_recurF (t : IntTy) : (fuel : ℕ) → (a b : ℤ) → Res ℤ
  | 0, _, _ => .error .noReturn
  | n + 1, a, b =>
    if b = 0 then .ok a
    else if t.signed ∧ a = t.lo ∧ b = -1 then .error .intOverflow
    else gcd_recurF t n b (a.tmod b)

/-- factorial.hpp:58-69 with at most `fuel` nested calls -/
def factorial_recurF (t : IntTy) : (fuel : ℕ) → (x : ℤ) → Res ℤ
  | 0, _ => .error .noReturn
  | n + 1, x =>
    if x < 21 then .ok (factorial_table t x)
    else do
      let r ← factorial_recurF t n (x - 1)
      t.arith (x * r)

/-- pow_integral.hpp:37-48, base of integer type, with at most `fuel` nested calls -/
def powI_recurF (t : IntTy) : (fuel : ℕ) → (base val e : ℤ) → Res ℤ
  | 0, _, _, _ => .error .noReturn
  | n + 1, base, val, e =>
    if 1 < e then
      if is_odd e then do
        let bb ← t.arith (base * base)
        let v ← t.arith (val * base)
        powI_recurF t n bb v (e / 2)
      else do
        let bb ← t.arith (base * base)
        powI_recurF t n bb val (e / 2)
    else if e = 1 then t.arith (val * base) else .ok val

/-- binomial_coef.hpp:27-38: the value together with the number of calls made -/
def binomial_coef_count (t : IntTy) (n k : ℤ) : Res ℤ × ℕ :=
  if k = 0 ∨ n = k then (.ok 1, 1)
  else if n = 0 then (.ok 0, 1)
  else if n - 1 < t.lo ∨ k - 1 < t.lo then (.error .intOverflow, 1)
  else
    let a := binomial_coef_count t (n - 1) (k - 1)
    let b := binomial_coef_count t (n - 1) k
    (a.1.bind fun x => b.1.bind fun y => t.arith (x + y), 1 + a.2 + b.2)
termination_by (n - t.lo).toNat
decreasing_by all_goals omega

end Gcem
