# Lean 4 model of kthohr/gcem

gcem is a header-only C++ library of `constexpr` mathematical functions.  It has no state, no I/O and no
concurrency.  The properties are therefore input/output properties of pure functions over *all* values of
the argument types, plus undefined behaviour and termination.

## 1. Modules

| Lean module | content |
|---|---|
| `Verif/Fp/Format.lean` | floating formats, rounding, the values `FV f`, arithmetic, comparison, conversion, literals, undefined-behaviour outcomes |
| `Verif/Fp/{Round,Value,RoundFns,Split,Calc,Sum,Exact,Err,Rel}.lean` | lemmas about these (monotonicity of rounding, representability, half-ulp and relative error, absolute and relative error calculus) |
| `Verif/IntModel.lean`, `IntLemmas.lean` | C++ integer types, conversions, overflow; gcd, lcm, factorial, binomial_coef, integer pow, is_odd, is_even, integer abs, sgn, max, min |
| `Verif/Model/Basic.lean` | abs, sgn, signbit, copysign, neg_zero, is_nan/is_inf/is_finite, max, min, floor, ceil, trunc, round, fmod, find_whole, find_fraction |
| `Verif/Model/Const.lean` | the constants of gcem_options.hpp, `whileDown` (a counting-down loop) |
| `Verif/Model/Elem.lean` | pow_integral, sqrt, inv_sqrt, hypot, exp, expm1, mantissa, find_exponent, log, log1p, log2, log10, pow |
| `Verif/Model/Trig.lean` | tan, sin, cos, atan, atan2, asin, acos, sinh, cosh, tanh, asinh, acosh, atanh |
| `Verif/Model/Special.lean` | erf, erf_inv, lgamma, tgamma, beta, lbeta, lmgamma, log_binomial_coef, incomplete_beta, incomplete_gamma and their inverses |
| `Verif/Model/Quad.lean` | the Gauss-Legendre tables of quadrature/*.hpp |
| `Verif/Analysis/*` | real analysis: continued fractions of exp, log, arctan, tan, erf versus the real functions; the Lanczos sum versus log Gamma; Taylor remainder of arctan; Newton iteration; enclosures of the constants |
| `Verif/Props/*` | the property theorems; beside each a concrete `example` |

Each model definition cites file and lines of `/repo/include/gcem_incl`.

## 2. What a value is

`FV f` has three kinds of value: NaN, an infinity with a sign, a rational with a sign for zero.
`f = ⟨ty, exact⟩` with `ty` one of float (binary32), double (binary64), long double (x87, 64-bit significand).
Every operation computes the exact rational result and rounds once to nearest-even, with gradual underflow
and overflow to infinity.  All of it is executable in the kernel, so a counterexample is evaluated bit for bit.

`exact = true` runs the same program text over exact rationals (rounding is the identity, nothing overflows,
thresholds such as `GCLIM<T>::min()` are unchanged).  A theorem with the hypothesis `f.exact = false` is about the
three machine types; a theorem without hypothesis on `f` is about all six.
`Valid v` says that `v` is a value of the type (representable, in range, sign flag set only for a zero).

Results that may be undefined are `Except UB α`: `intOverflow`, `divByZero`, `castRange`
(out-of-range float to integer conversion), `noReturn` (the recursion did not end within a fuel; theorems show
that this is never the outcome, or characterise when it is).

Integers are `IntTy = (bits, signed)` for int, unsigned, long, unsigned long, long long, unsigned long long (LP64).

## 3. Trusted base

* The Lean 4.33.0 kernel.  No axioms of our own, no `sorry`, no `native_decide`, no `bv_decide`, no `implemented_by`.
* Axioms: every theorem named in MANIFEST.json depends on `propext`, `Classical.choice`, `Quot.sound` only
  (`#print axioms`).  `C04_factorial_signed_overflow`, `C05_factorial_negative`, `C09_pow_neg_max`,
  `C14_max_min_int` use only `propext`, `Quot.sound`; `C14_max_min_mixed_wrong`, `C14_max_min_nan` only `propext`.
* The transcription from C++ to `Verif/Model`, made by hand from the cited lines.
* Assumptions on the platform: IEEE 754 arithmetic in round-to-nearest-even, `FLT_EVAL_METHOD == 0`, no contraction
  to FMA, no `-ffast-math`, decimal literals correctly rounded, long double is the x87 80-bit type, LP64,
  the GCC/Clang branch of `signbit` (`__builtin_signbit`).

## 4. Not modelled

* NaN payloads and sign (there is a single NaN).
* Constant-evaluation diagnostics and template-depth limits: the model is the run-time semantics.
* One-argument floating functions called with an integer: modelled where the property says so (rounding functions, log
  of negative integers, integral pow, lgamma); elsewhere `return_t<T>` just converts to double first.
* Mixed and integral arguments of the multi-argument functions are in `Verif/Model/Mixed.lean` (C84-C88).
  `incomplete_beta_inv` with integers is modelled up to the point where it is undefined (C86).
* Integer types narrower than `int` are in `Verif/Model/Narrow.lean` (C89), without `bool` and `char16_t`-like types.
  `gcd` and `lcm` of one narrow type and `pow` with a narrow base do not compile (conflicting template deduction in
  gcd.hpp:33 and pow_integral.hpp:46); this is an observation on the text, not a theorem.
* The C++14 loops are the main model.  The C++11 recursive alternatives are modelled for C60 only.

## 5. Properties

For each property: how it is proved, the theorems (namespace `Gcem.Props`), and the outcome.  "FALSE" marks a natural reading of the property that the code does not satisfy; the negation is proved with the witness named.

### C01 gcd is the greatest common divisor, and is defined except at the minimum value

For signed or unsigned integer arguments a and b of any types of rank at least int, gcd(a,b) returns the nonnegative greatest common divisor of the mathematical values (0 for gcd(0,0)) with no undefined behaviour, provided no signed argument equals the minimum of its type. If a signed argument equals the minimum of its type the call is undefined (negation overflows). Mixed signed/unsigned calls are correct too.

*Proof.* Strong induction on the Euclidean recursion; the specification is `Int.gcd` and divisibility.

*Theorems.* `C01_gcd_correct`, `C01_gcd_undefined`

*Outcome.* proved. True as stated.

### C02 lcm is the least common multiple whenever that is representable, and undefined otherwise

For two integers of the same type, not both zero and neither equal to the signed minimum: if the least common multiple of |a| and |b| is representable then lcm(a,b) returns it; if it is not representable, lcm is undefined for signed types and returns the value modulo 2^w for unsigned types. lcm(0,0) divides by zero, so it is undefined although the mathematical value is 0.

*Proof.* From C01 and an exact characterisation of when the product inside `lcm` is representable.

*Theorems.* `C02_lcm_correct`, `C02_lcm_overflow`, `C02_lcm_unsigned`, `C02_lcm_zero_zero`

*Outcome.* proved. 

### C03 Mixed-signedness lcm is wrong for negative arguments

lcm of a negative signed integer and an unsigned integer of at least the same rank converts the negative value to unsigned before taking the absolute value, so the result is the lcm of a huge number, not of |a|; it agrees with the mathematical lcm whenever both arguments are nonnegative and the result is representable in the common type.

*Proof.* Kernel-evaluated witness in the mixed-signedness conversion.

*Theorems.* `C03_lcm_mixed`, `C03_lcm_mixed_wrong`, `C03_lcm_mixed_nonneg`

*Outcome.* proved. 

### C04 factorial of an integer equals n! exactly when representable

For an integer type and argument n>=0: if n! is representable in the type, factorial(n) = n!. For unsigned types factorial(n) = n! mod 2^w for every n. For signed types with n >= 21 the call is undefined for 64-bit types (signed overflow), and for 32-bit int n in 13..20 silently returns n! reduced modulo 2^32.

*Proof.* Induction on n; the signed case tracks the first partial product that leaves the type, the unsigned case is modular.

*Theorems.* `C04_factorial_unsigned`, `C04_factorial_exact`, `C04_factorial_signed_overflow`, `C04_factorial_int_wraps`

*Outcome.* proved. 

### C05 factorial of a negative integer is not rejected

For every negative integer argument, factorial returns the (truncated) value of 20!, not an error or a NaN.

*Proof.* Unfolding: the guard compares with a table only for small n and the recursion never reaches its base.

*Theorems.* `C05_factorial_negative`

*Outcome.* proved. 

### C06 binomial_coef of integers is the binomial coefficient exactly when it fits

For integers n>=0 and any k, of one type: if C(n,k) (0 for k<0 or k>n) and every binomial coefficient reached by the Pascal recursion fit, binomial_coef(n,k) returns C(n,k); for signed types it is undefined iff C(n,k) is not representable; for unsigned types it equals C(n,k) mod 2^w.

*Proof.* Induction along the multiplicative recursion, with divisibility of the partial products.

*Theorems.* `C06_binomial_signed`, `C06_binomial_unsigned`, `C06_binomial_negative_k`

*Outcome.* proved. 

### C07 binomial_coef with negative n is undefined

For a signed type, n<0 and k different from 0 and from n, binomial_coef(n,k) never returns: the recursion decrements n until signed overflow.

*Proof.* Witness: the recursion does not reach its base.

*Theorems.* `C07_binomial_negative_n`

*Outcome.* proved. 

### C08 pow with an integer base and nonnegative integer exponent is exact when representable

For an integer base b and an integer exponent e>=0 different from the maximum of its type: if b^e is representable in the base type then pow(b,e) returns b^e with no undefined behaviour; for unsigned base types it returns b^e mod 2^w; for signed base types it is undefined if b^e is not representable.

*Proof.* Invariant val * base^exp on square-and-multiply, over integers with overflow.

*Theorems.* `C08_pow_int_signed`, `C08_pow_int_same_type`, `C08_pow_int_unsigned`

*Outcome.* proved. 

### C09 pow with integer exponent at the limits of its type gives wrong answers

With an integer base, pow(b, max of exponent type) returns 0 for every b, including pow(1,max) (should be 1); pow(b, min of exponent type) returns 0 for every b. With integer base 0 and a negative exponent the call divides by zero; with exponent -max it always divides by zero.

*Proof.* Unfolding of the guards at the limits of the exponent type.

*Theorems.* `C09_pow_exp_max`, `C09_pow_one_max_wrong`, `C09_pow_exp_min`, `C09_pow_zero_neg`, `C09_pow_neg_max`

*Outcome.* proved. 

### C10 pow with a negative exponent on integer bases truncates the reciprocal

For an integer base b with |b|>=2 and exponent e with -max<e<0 and b^|e| representable, pow(b,e)=0; for b=1 it is 1; for b=-1 it is (-1)^|e|.

*Proof.* Case analysis on the base; integer division truncates.

*Theorems.* `C10_pow_int_negative`

*Outcome.* proved. 

### C11 pow with floating base and integer exponent obeys sign, unit and zero rules for every value

For a floating-point base x (any value, NaN and infinities included) and an integer-typed exponent e with e, -e and e different from the limits of its type: pow(x,0)=1, pow(x,1)=x, pow(1,e)=1; pow(-x,e) equals pow(x,e) for even e and -pow(x,e) for odd e, bit for bit; pow(2,e) is exactly 2^e for |e| < emax, +inf above and +0 below (even where 2^e is a representable subnormal). At the maximum of the exponent type the result is +inf, at its minimum and at minus the maximum it is 0, whatever the base (also base 1).

*Proof.* Case analysis on special values through the square-and-multiply recursion.

*Theorems.* `C11_zero_one`, `C11_base_one`, `C11_sign`, `C11_base_two`, `C11_limits`

*Outcome.* proved. 

### C12 pow with floating base and integer exponent: rounding error bound

For a finite nonzero base x and an integer-typed exponent n >= 0 (not the maximum of its type): if |x| >= 1, or |x|^n stays clear of the subnormal range, pow(x,n) is an infinity or x^n times a factor in [(1-u)^(n-1), (1+u)^(n-1)] with u the unit roundoff; for |x| >= 1 it is finite whenever (|x|(1+u))^n is below the overflow limit; a negative exponent adds one rounding. pow(m,n) is exactly m^n for integer-valued m with |m|^n <= 2^p.

*Proof.* Invariant: each partial power is x^k times a product of k-1 factors in [1-u,1+u]; needs no underflow (base at least one, or a bound on the power).

*Theorems.* `C12_error_bound`, `C12_error_bound_neg_exponent`, `C12_finite`, `C12_exact_integers`

*Outcome.* proved. 

### C13 abs, sgn, signbit, copysign, neg_zero agree with IEEE semantics on every non-NaN value

abs(x) is |x| with +0 for both zeros; sgn(x) is -1, 0 or 1; signbit(x) is the IEEE sign bit (true for -0); copysign(x,y) has the magnitude of x and the sign of y, including zeros and infinities; neg_zero(x) is true exactly for -0. For integers abs(x)=|x| and is undefined exactly at the signed minimum.

*Proof.* Case analysis over FV.

*Theorems.* `C13_abs_int`, `C13_sgn_int`, `C13_abs_float`, `C13_sgn_float`, `C13_signbit`, `C13_copysign`, `C13_neg_zero`

*Outcome.* proved. 

### C14 max and min select the larger and smaller argument and treat NaN asymmetrically

For non-NaN floating x,y: max(x,y) and min(x,y) each return one of the arguments, bound both, and pick opposite arguments unless x==y. If either argument is NaN both functions return the second argument. For integers whose values fit the common type they are the mathematical maximum and minimum; with mixed signedness the comparison happens after conversion, so max(-1,1u) is 4294967295 and min(-1,1u) is 1.

*Proof.* Case analysis over FV and over integers; witnesses for NaN and mixed signedness.

*Theorems.* `C14_max_min_int`, `C14_max_min_mixed_wrong`, `C14_max_min_float`, `C14_max_min_complementary`, `C14_max_min_nan`

*Outcome.* proved. 

### C15 floor is exact for every non-subnormal value

For float, double and long double: if x is finite and not subnormal, floor(x) is the greatest integer not above x, exactly, with no undefined conversion; floor of NaN, infinities and zeros returns the argument.

*Proof.* The conversion to long long is exact below 2^63; from 2^(p-1) on every value is an integer.

*Theorems.* `C15_floor_exact`, `C15_floor_special`

*Outcome.* proved. 

### C16 ceil is exact for every non-subnormal value

For float, double and long double: if x is finite and not subnormal, ceil(x) is the least integer not below x, exactly, with no undefined conversion; ceil of NaN, infinities and zeros returns the argument.

*Proof.* As C15.

*Theorems.* `C16_ceil_exact`, `C16_ceil_special`

*Outcome.* proved. 

### C17 trunc is exact for every value other than subnormals

For all three floating types: if x is finite and not subnormal, trunc(x) is x rounded toward zero, exactly, with no undefined conversion; NaN, infinities, zeros are returned unchanged.

*Proof.* As C15.

*Theorems.* `C17_trunc_exact`, `C17_trunc_special`

*Outcome.* proved. 

### C18 round is exact (half away from zero) for every value other than subnormals

For all three floating types: if x is finite and not subnormal, round(x) is the nearest integer with ties away from zero, exactly (including the values just below 1/2 and the range just below 2^p), with no undefined conversion; NaN, infinities, zeros are returned unchanged.

*Proof.* As C15, with the half-integer case analysed through exactness of x - trunc(x).

*Theorems.* `C18_round_exact`, `C18_round_special`

*Outcome.* proved. 

### C19 floor, ceil, trunc and round return subnormals unchanged

For every nonzero subnormal x, floor(x)=ceil(x)=trunc(x)=round(x)=x, which is not an integer: so floor(-denorm) is not -1, ceil(denorm) is not 1, trunc(denorm) is not 0.

*Proof.* Unfolding of the `min() > abs(x)` guard.

*Theorems.* `C19_subnormal_unchanged`, `C19_subnormal_not_integer`

*Outcome.* proved. 

### C20 Rounding functions: ordering, idempotence and reflection laws

For every value of every floating type floor, ceil, trunc and round are free of undefined behaviour and idempotent; for every finite x, floor(x) <= x <= ceil(x) and floor(x) <= trunc(x) <= ceil(x); ceil(-x) = -floor(x), trunc(-x) = -trunc(x), round(-x) = -round(x) up to the sign of a zero. All four are monotone on zeros and normal values, but not across subnormals.

*Proof.* Consequences of C15-C18 and monotonicity of the integer part.

*Theorems.* `C20_total`, `C20_ordering`, `C20_idempotent`, `C20_reflection`, `C20_monotone`, `C20_not_monotone_subnormal`

*Outcome.* proved. 

### C21 Integral arguments of rounding functions pass through double

floor, ceil, trunc and round of an integer n return double(n) correctly rounded: equal to n exactly when n is representable as double, in particular for all |n| <= 2^53, and not for e.g. 2^53+1.

*Proof.* Integers beyond 2^53 pass through double; witness and exactness below 2^53.

*Theorems.* `C21_integral_value`, `C21_integral_exact`, `C21_integral_inexact`

*Outcome.* proved. 

### C22 fmod is exact on integer-valued arguments below 2^p

For integer-valued floating x,y with |x|,|y| < 2^(p) and y != 0, fmod(x,y) is the exact truncated remainder: value x - y*trunc(x/y), with magnitude below |y| and the sign of x or zero.

*Proof.* All intermediate integers are at most 2^p, hence exact.

*Theorems.* `C22_fmod_integers`, `C22_remainder_bounds`

*Outcome.* proved. 

### C23 fmod special values

fmod returns NaN if either argument is NaN or either is infinite (std::fmod(x, inf) is x instead), and NaN for y = 0.

*Proof.* Case analysis.

*Theorems.* `C23_fmod_special`

*Outcome.* proved. 

### C24 fmod is not a remainder in general

For |x|<|y| with x/y not subnormal, fmod(x,y)=x; but in general the bound |fmod(x,y)|<|y| fails for large quotients, and for quotients that underflow to the subnormal range fmod(x,y) differs from x.

*Proof.* Kernel-evaluated witnesses.

*Theorems.* `C24_fmod_small`, `C24_not_a_remainder`, `C24_subnormal_quotient`

*Outcome.* proved. 

### C25 sqrt: special values and domain

sqrt(NaN)=NaN, sqrt(x)=NaN for every x<0 (including -inf and negative subnormals), sqrt(+inf)=+inf, sqrt(x)=+0 for zeros of either sign and for every positive subnormal, sqrt(1)=1; for every value of every floating type the call returns without undefined behaviour, and a positive normal argument gives a positive finite result.

*Proof.* Case analysis and termination of the Newton loop by its counter.

*Theorems.* `C25_special`, `C25_total`

*Outcome.* proved. 

### C26 sqrt error bound

For every normal positive float, |sqrt(x) - real root| <= 18*2^-24 relative; for every finite double x >= 2^-180 the bound is 71*2^-53; for every finite long double x >= 2^-180 it is 969*2^-64; for 2^-180 <= x <= 4 (no argument reduction) it is 3u in every type.

*Proof.* Scaling by powers of 4 is exact; Newton iteration with rounding contracts to a 2-3 ulp neighbourhood in a bounded number of steps and the stopping rule fires inside it.

*Theorems.* `C26_float`, `C26_double`, `C26_long_double`, `C26_upto4`

*Outcome.* proved. True with the constants given; below 2^-180 (double, long double) the 100-step Newton iteration does not converge and nothing is claimed.

### C27 sqrt is inaccurate for very small arguments

For every normal positive x <= 1/4 of every type sqrt(x) is at least 2^-100 (the Newton iteration starts near 1, each of at most 100 steps at best halves the iterate, and small arguments are not scaled up); hence for every normal x <= 2^-(200+2k) the result is at least 2^k times the real square root, e.g. sqrt(1e-300) is wrong by more than 100 orders of magnitude.

*Proof.* Each Newton step at best halves the iterate, so 100 steps leave it at least 2^-100.

*Theorems.* `C27_lower_bound`, `C27_wrong_by_factor`

*Outcome.* proved. 

### C28 inv_sqrt: special values and failures

inv_sqrt(NaN)=NaN, inv_sqrt(x<0)=NaN, inv_sqrt(+inf)=+0, inv_sqrt(0)=inv_sqrt(positive subnormal)=+inf, inv_sqrt(1)=1. On [2^-60, 2^60] the result is within 3u (relative) of 1/sqrt(x) in every type. For every finite x >= 1 the result is at least x/2^101, so for x >= 2^(2m) it is too large by a factor of at least 2^(3m-101); and inv_sqrt(2^-1000) is +inf for double.

*Proof.* As C26 for the reciprocal iteration; a lower bound for large arguments from the number of steps.

*Theorems.* `C28_special`, `C28_accurate`, `C28_lower_bound`, `C28_wrong_by_factor`, `C28_small_overflow`

*Outcome.* proved. Accurate only on [2^-60,2^60]; outside, the negative result is proved (lower bound for every x>=1).

### C29 hypot: special values, sign insensitivity, error bound, and asymmetry

hypot is free of undefined behaviour; it is NaN if any argument is NaN (also when the other is infinite), otherwise +inf if any is infinite, |y| if x is zero or subnormal, |x| if y is. hypot(-x,y)=hypot(x,-y)=hypot(x,y) bit for bit. For normal arguments with |y| <= 2^62|x| (float), 2^510|x| (double), 2^8190|x| (long double) the result is +inf or within 22, 75, 973 units of 2^-24, 2^-53, 2^-64 (relative) of the Euclidean norm. It is not symmetric: hypot(1,3) differs from hypot(3,1), and hypot(2^-600,2^600) is +inf while hypot(2^600,2^-600) is 2^600.

*Proof.* Error propagation through |x| sqrt(1+(y/x)^2) using C26; kernel-evaluated witnesses for asymmetry.

*Theorems.* `C29_special`, `C29_sign`, `C29_not_symmetric`, `C29_float`, `C29_double`, `C29_long_double`, `C29_total`

*Outcome.* proved. Symmetry in the arguments is FALSE (C29_not_symmetric); the accuracy theorems carry the hypothesis |y| <= 2^k|x|.

### C30 exp: special values and where it is undefined

exp(NaN)=NaN, exp(-inf)=+0, exp(+inf)=+inf, exp(x)=1 for |x| below the smallest positive normal. For finite x of type float or double the call is undefined exactly when x < -2^63 or x >= 2^63 (out-of-range conversion to long long), although the real value is 0 or overflows; for long double the undefined set is x < -2^63, x = -2^63+1/2 and x >= 2^63-1/2.

*Proof.* The only partial operation is the conversion in find_whole; characterised by |x| >= 2^63.

*Theorems.* `C30_special`, `C30_undefined`, `C30_undefined_long_double`

*Outcome.* proved. The undefined set is characterised exactly.

### C31 find_whole/find_fraction split x exactly

For every finite x with |x| >= 1 the split used by exp is exact: x = W + r without rounding, W an integer. For x>0 the fraction r is in [-1/2,1/2); for x<0 it is in [0,1/2) or [3/2,2) (so -1.5 is split as -3 + 1.5, contrary to the documented range). find_whole returns W, and is undefined exactly when W is not a long long value.

*Proof.* Sterbenz-style exactness of x - n for the rounding used by find_whole.

*Theorems.* `C31_split`, `C31_negative_not_nearest`, `C31_undefined`

*Outcome.* proved. The documented range of the fraction is FALSE for negative arguments (C31_negative_not_nearest).

### C32 exp truncation error of the continued fraction

Evaluated in exact rational arithmetic (rounding switched off), exp(x) for |x| < 2 differs from the real e^x by at most 1e-18 relative, so the fixed 25-level continued fraction contributes less error than one rounding to long double.

*Proof.* The continued fraction is the Riccati equation's convergent; the remainder is bounded through the differential inequality and exact rational evaluation at the end point.

*Theorems.* `C32_truncation`

*Outcome.* proved. 

### C33 exp floating-point error bound

For every float x in [-86, 88], every double x in [-707, 709] and every long double x in [-11354, 11356], exp(x) is a positive finite value and |exp(x) - e^x| <= (104 u + (|x|+7) 2^-62) e^x with u = 2^-24, 2^-53, 2^-64 the unit roundoff of the type; for |x| < 2 the bound is (101.2 u + 1.1e-18) e^x.

*Proof.* C31 (exact splitting), C32 (truncation), absolute error calculus for the continued fraction and C12 for e^n.

*Theorems.* `C33_direct_range`, `C33_accuracy`

*Outcome.* proved. 

### C34 expm1: special values, error bounds on both branches

expm1(NaN)=NaN, expm1(+inf)=+inf, expm1(-inf)=-1, signed zeros are preserved, and it is undefined exactly where exp is. For |x| <= 1e-4 (subnormals included) the relative error is at most 2u. For larger |x| in the range of exp it is exp(x)-1 with error at most (105u + (|x|+8)2^-62) e^x + u|e^x-1|; this is not relative to e^x-1: there is a double between 1e-4 and 1.01e-4 at which the relative error exceeds 10000u.

*Proof.* Short series with explicit remainder below 1e-4, C33 above.

*Theorems.* `C34_large`, `C34_inaccurate`, `C34_special`, `C34_branches`, `C34_accuracy`

*Outcome.* proved. The 2u bound holds up to 1e-4; the same bound above 1e-4 is FALSE (C34_inaccurate).

### C35 log: special values, domain, termination

log(NaN)=NaN, log(x)=NaN for x<0 and -inf, log(x)=-inf for zeros and every positive subnormal, log(+inf)=+inf, log(1)=0; for every value no undefined behaviour occurs and the recursions terminate, for a positive normal argument within emax+2 nested calls (130 for float, 1026 for double, 16386 for long double).

*Proof.* Case analysis; the mantissa/exponent recursions end because each step moves the argument by a factor ten towards [1,10).

*Theorems.* `C35_special`, `C35_total`, `C35_depth`

*Outcome.* proved. 

### C36 log splits its argument consistently for x >= 1 but not for small x

For every finite x >= 1 the decimal mantissa m in [1,10] and exponent k used by log belong together: m*10^k = x*theta with (1-u)^k <= theta <= (1+u)^k. For small x they may disagree by one power of ten: log(1e-14) (double) uses mantissa 9.99... with exponent -14 and returns a value above -30, although the real logarithm is below -32.

*Proof.* Invariant of the two recursions for x >= 1; witnesses for small x.

*Theorems.* `C36_consistent`, `C36_inconsistent`

*Outcome.* proved. FALSE for small arguments (C36_inconsistent); proved for x >= 1.

### C37 log floating-point error bound

With u = 2^-24, 2^-53, 2^-64 the unit roundoff of float, double, long double: for 1/2 <= x <= 3/2, |log(x) - ln x| <= 5 u |ln x| (a relative bound, also next to the zero at 1); for every finite x >= 1, |log(x) - ln x| <= (15 + 5 ln x) u; for every normal x < 1/2, |log(x) - (ln x + j ln 10)| <= (40 + 5 |ln x|) u with j in {-1,0,1}, and j = 0 unless x is within 1e-4 (relative) of a power of ten.

*Proof.* Exact rational evaluation of the continued fraction remainder on [1/4,3/2]-type ranges, invariants of the base-ten splitting, error calculus.

*Theorems.* `C37_direct_range`, `C37_ge_one`, `C37_small`

*Outcome.* proved. 

### C38 log, log2, log10 of negative integers return 0

log(n), log2(n) and log10(n) of an integer-typed n<0 return 0 instead of NaN; log(0) of integer type is -inf; log(1)=0; for n>=2 the result is that of the double overload.

*Proof.* Unfolding of the integral overload.

*Theorems.* `C38_log`, `C38_log2_log10`

*Outcome.* proved. 

### C39 log1p: special values, error bounds on both branches

log1p(NaN)=NaN, log1p(+inf)=+inf, log1p(-1)=-inf, NaN for every x < -1, signed zeros are preserved, never undefined. For |x| <= 1e-4 (subnormals included) the relative error is at most 2u. For larger |x| it is log(1+x) of the rounded sum: for -1/2 <= x <= 1/2 the error is at most (2 + 5|ln(1+x)|)u, for 0 <= x <= 2^126 at most (17 + 5 ln(1+x))u; this is not relative: there is a double between 1e-4 and 1.01e-4 at which the relative error exceeds 9000u.

*Proof.* As C34 for log1p.

*Theorems.* `C39_large`, `C39_inaccurate`, `C39_special`, `C39_branches`, `C39_accuracy`

*Outcome.* proved. The 2u bound holds up to 1e-4; the same bound above 1e-4 is FALSE (C39_inaccurate).

### C40 pow with real exponents: domain and special values

pow(x,y) with a floating exponent: NaN if x or y is NaN or x<0 (also for whole y, e.g. pow(-2.0,2.0)); for x zero or positive subnormal: 0 for y>0, +inf for y<0, NaN for y=0; pow(1,y)=1 for finite y and NaN for infinite y; pow(+inf,y) is +inf, 0, NaN for y>0, y<0, y=0. pow(2.0,2.0) is not exactly 4 and pow(2.0,1e300) is undefined.

*Proof.* Case analysis; witnesses evaluated by the kernel.

*Theorems.* `C40_domain`, `C40_zero_base`, `C40_one_base`, `C40_inf_base`, `C40_witnesses`

*Outcome.* proved. pow(2.0,2.0)=4 and definedness of pow(2.0,1e300) are FALSE (C40_witnesses).

### C41 sin and tan are odd, cos is even, bit for bit

For every floating value x of every type tan(x), sin(x), cos(x) are free of undefined behaviour; tan(-x) = -tan(x) and sin(-x) = -sin(x) up to the sign of a zero result (bit for bit when x/2 is not below the smallest normal), cos(-x) = cos(x) bit for bit; NaN for NaN and for both infinities; below the smallest normal tan and sin are +0 and cos is 1. Large arguments lose all accuracy: tan(1e22)=sin(1e22)=0 and cos(1e22)=1 in double.

*Proof.* Every operation of the kernels commutes with negation because rounding is symmetric.

*Theorems.* `C41_total`, `C41_symmetry`, `C41_bit_exact`, `C41_special`, `C41_large_argument`

*Outcome.* proved. Accuracy for large arguments is FALSE (C41_large_argument).

### C42 sin and cos stay in [-1,1] for every input

For every floating x, sin(x) and cos(x) (as computed, after rounding) are NaN or lie in [-1,1].

*Proof.* Rounded inequalities |2z| <= 1+z^2 and |1-z^2| <= 1+z^2 survive monotone rounding.

*Theorems.* `C42_range`

*Outcome.* proved. 

### C43 Accuracy of tan, sin and cos

For |x| <= 2^20, at least the smallest normal number, tan(x) is finite and is the exact tangent of some angle within 20.1u|x| of x (u the unit roundoff); for |x| <= 1 this gives a relative error of at most 81u. For |x| <= 2^20, at least twice the smallest normal number, |sin(x) - real sine| <= 25u|x| and |cos(x) - real cosine| <= 20.1u|x| + 3.7u. For long double, and only where the tangent (for sin and cos: of x/2) is the constant 1.633124e16 returned at the stored pi/2, there is an additional 2^-53 (tan, in the angle) or 2^-51 (sin, cos). At the smallest normal number itself sin returns 0.

*Proof.* Backward error. The continued fraction is run from the inside with a running bound on the error of each denominator (they can be small near pi, where one level may even vanish); near pi/2 the Laurent polynomial of the cotangent is compared with cot; the reduction x - floor(x/pi)*pi is at most two exact-quotient steps whose errors are charged to the angle; sin and cos from the half-angle formulas, one relative error per operation.

*Theorems.* `C43_tan`, `C43_sin`, `C43_cos`, `C43_float_double`, `C43_tan_unit`, `C43_sin_flush`

*Outcome.* proved. 

### C44 atan: odd, special values, range

atan(-x) = -atan(x) bit for bit unless |x| is below the smallest normal, where both are +0; atan(NaN)=NaN; atan(+-inf)=+-pi/2 as stored; |atan(x)| never exceeds the stored pi/2, and for every normal x the result is nonzero with the sign of x.

*Proof.* Symmetry of rounding; range from the monotonicity of rounding applied to the last operations.

*Theorems.* `C44_odd`, `C44_special`, `C44_range`

*Outcome.* proved. 

### C45 atan: accuracy for every normal argument

For every normal x of every type atan(x) is finite and within a relative error of 11u + 1.63e-17 of the real arctangent (u the unit roundoff); more precisely (2.1 + 1.36x^2)u + 1.63e-17 for |x| <= 2.5 and 2u + 8e-18 beyond; for |x| <= 2^-40 the result is x itself.

*Proof.* The truncated continued fraction lies alternately above and below arctan (sign of the derivative of the difference), which bounds the truncation by the difference of consecutive convergents, evaluated exactly at the end points of the five ranges; relative error calculus for the rounding; the alternating Taylor series with C12 for |x|>2.5; for |x| >= 2^22 the correction is negligible even when its denominators overflow.

*Theorems.* `C45_accuracy`, `C45_small`, `C45_ranges`

*Outcome.* proved. 

### C46 atan2 follows the quadrant table

atan2(y,x) is NaN if any argument is NaN. If |x| is at least the smallest normal: atan(y/x) for x>0, atan(y/x) - pi for x<0 and y<0, atan(y/x) + pi for x<0 otherwise, and atan2(-y,x) = -atan2(y,x) for y not zero (up to the sign of a zero result). If |x| is below it: +-pi/2 by the sign of y, and for zero y and x one of +0, -0, +pi, -pi by the signs of the zeros. Deviations from the C library: atan2(inf,inf) is NaN, atan2(-0,-1) is +pi, atan2(-0,1) is +0.

*Proof.* Case analysis.

*Theorems.* `C46_table`, `C46_axis`, `C46_nan`, `C46_antisymmetric`, `C46_deviations`

*Outcome.* proved. Agreement with the C library at signed zeros / infinities is FALSE (C46_deviations).

### C47 asin and acos: domain, symmetry, end points

asin and acos are free of undefined behaviour and NaN for NaN and every |x|>1; asin is odd bit for bit except at zeros; asin(+-1)=+-pi/2 as stored, acos(1)=0, acos(-1)=pi as stored; acos(-x) = pi - acos(x) as computed, for x>0.

*Proof.* Case analysis and symmetry of rounding.

*Theorems.* `C47_asin_odd`, `C47_domain`, `C47_acos_reflect`, `C47_endpoints`, `C47_total`

*Outcome.* proved. 

### C48 tanh: odd, NaN, and not bounded by 1

tanh(-x) = -tanh(x) bit for bit unless |x| is below the smallest normal (then +0); tanh(NaN)=NaN; but tanh is not bounded by 1: tanh(30.0) exceeds 1, tanh(1e6) exceeds 1587, and tanh(+-inf) is NaN.

*Proof.* Symmetry; kernel-evaluated witnesses.

*Theorems.* `C48_odd`, `C48_special`, `C48_not_bounded`

*Outcome.* proved. |tanh| <= 1 is FALSE (C48_not_bounded).

### C49 sinh is odd, cosh is even

For every value of every type sinh(-x) = -sinh(x) up to the sign of a zero and cosh(-x) = cosh(x) bit for bit, with the same undefined set (finite |x| >= 2^63 for float and double); NaN at NaN; below the smallest normal sinh is +0 and cosh is 1; infinite arguments give sinh = +-inf and cosh = +inf. Small results are lost to cancellation: sinh(1e-17) is 0.

*Proof.* Symmetry through exp(-x); kernel-evaluated witnesses.

*Theorems.* `C49_symmetry`, `C49_special`, `C49_undefined`, `C49_cancellation`

*Outcome.* proved. Small-argument accuracy of sinh is FALSE (C49_cancellation).

### C50 asinh, acosh, atanh: domains and failures

asinh, acosh, atanh are free of undefined behaviour; acosh is NaN for NaN and x<1, 0 at 1; atanh is NaN for NaN and |x|>1, +-inf at +-1; asinh(NaN)=NaN. asinh is not odd: asinh(-1e10) is -inf and asinh(-inf) is NaN; asinh(1e200) and acosh(1e200) are +inf although the real value is about 461.

*Proof.* Case analysis; kernel-evaluated witnesses.

*Theorems.* `C50_total`, `C50_domain`, `C50_failures`

*Outcome.* proved. Oddness of asinh is FALSE (C50_failures).

### C51 erf: odd, +-1 at infinities, NaN

erf(-x) = -erf(x) bit for bit unless |x| is below the smallest normal (then +0), erf(NaN)=NaN, erf(+-inf)=+-1. For float and double erf(x) is undefined exactly when the computed x*x is finite and exceeds 2^63; where x*x overflows, erf(x) is exactly 1 (x>0).

*Proof.* Case analysis; definedness through C30.

*Theorems.* `C51_special`, `C51_odd`, `C51_undefined`, `C51_overflow`

*Outcome.* proved. Undefined set characterised exactly for float and double.

### C52 erf_inv: domain, end points, odd

erf_inv(NaN)=NaN, NaN for every |p|>1, +-inf at +-1, and erf_inv(-p) = -erf_inv(p) up to the sign of a zero, with the same undefined set.

*Proof.* Case analysis and symmetry of the final arithmetic.

*Theorems.* `C52_odd`, `C52_domain`

*Outcome.* proved. 

### C53 lgamma and tgamma: domain, poles, undefined set

lgamma is free of undefined behaviour, +inf for every x below the smallest positive normal (including negative non-integers), 0 at 1, NaN at NaN and at +inf. tgamma: NaN at NaN, 1 at 1, +inf at zeros and subnormals, NaN at +inf and at negative integers >= -2^63, undefined at -inf and for x < -2^63; for a negative non-integer x it is tgamma(x+1)/x as computed, at most n+1 nested calls for x >= -n; for positive x away from 1 it is exp(lgamma(x)); tgamma(1e17) is +inf but tgamma(1e18) is undefined.

*Proof.* Case analysis, termination of the negative recursion by the integer part.

*Theorems.* `C53_lgamma_total`, `C53_lgamma_special`, `C53_tgamma_special`, `C53_tgamma_recursion`, `C53_tgamma_terminates`, `C53_tgamma_positive`, `C53_tgamma_large_undefined`

*Outcome.* proved. lgamma(+inf)=+inf and tgamma(+inf)=+inf are FALSE (both NaN).

### C54 beta and lbeta are symmetric

beta(a,b)=beta(b,a) and lbeta(a,b)=lbeta(b,a) bit for bit for all floating arguments; beta(a,b)=exp(lbeta(a,b)).

*Proof.* Commutativity of rounded addition.

*Theorems.* `C54_lbeta_symm`, `C54_beta_symm`, `C54_nan`

*Outcome.* proved. 

### C55 log_binomial_coef symmetry and lmgamma recursion

For integer-valued n,k with |k|,|n-k| <= 2^p, log_binomial_coef(n,k) returns and equals log_binomial_coef(n,n-k) bit for bit; for k=0 and k=n it is zero whenever lgamma(n+1) is finite. lmgamma(a,p) returns for every integer p, is lgamma(a) for p=1 and NaN for p<1, and for p>1 is log(pi)(p-1)/2 + lgamma(a) + lmgamma(a-1/2,p-1) as computed.

*Proof.* Integer arithmetic is exact below 2^p; induction on p for lmgamma.

*Theorems.* `C55_binomial_symm`, `C55_binomial_ends`, `C55_lmgamma`

*Outcome.* proved. 

### C56 incomplete_beta: boundaries and reflection

incomplete_beta(a,b,z) always terminates; its only undefined behaviour is the out-of-range conversion in exp, reached e.g. at (1e20,1,0.5). NaN if any argument is NaN; otherwise 0 for every z below the smallest positive normal (also negative z); on the upper branch it is 1 - incomplete_beta(b,a,1-z) as computed.

*Proof.* Loop counters bound every loop; case analysis.

*Theorems.* `C56_outcome`, `C56_boundary`, `C56_reflection`, `C56_undefined`

*Outcome.* proved. Definedness for all finite arguments is FALSE (C56_undefined).

### C57 incomplete_gamma: boundaries and branch totality

incomplete_gamma(a,z) always terminates; its only undefined behaviour is the out-of-range conversion in exp, reached e.g. at (1,1e20) although (1,1e18) gives 1. NaN if any argument is NaN or a<0; otherwise 0 for z below the smallest positive normal (also negative z), then 1 for a below it.

*Proof.* As C56.

*Theorems.* `C57_outcome`, `C57_boundary`, `C57_undefined`

*Outcome.* proved. Definedness for all finite arguments is FALSE (C57_undefined).

### C58 incomplete_beta_inv and incomplete_gamma_inv: boundaries

incomplete_beta_inv and incomplete_gamma_inv always terminate, their only undefined behaviour being the out-of-range conversion in exp. Both return NaN if any argument is NaN, 0 for p below the smallest positive normal, and 1 respectively +inf at p=1. incomplete_gamma_inv is NaN for p>1; a negative shape parameter is not rejected: incomplete_gamma_inv(-2,0.5)=0.

*Proof.* As C56.

*Theorems.* `C58_beta_outcome`, `C58_gamma_outcome`, `C58_beta_boundary`, `C58_gamma_boundary`, `C58_outside`

*Outcome.* proved. NaN outside the domain is FALSE (C58_outside).

### C59 NaN propagation

abs, floor, ceil, trunc, round, sqrt, inv_sqrt, exp, expm1, log, log1p, log2, log10, tan, sin, cos, asin, acos, atan, sinh, cosh, tanh, asinh, acosh, atanh, erf, erf_inv, lgamma, tgamma return NaN on NaN; atan2, fmod, hypot, pow (floating exponent), beta, lbeta, log_binomial_coef, incomplete_gamma, incomplete_gamma_inv, incomplete_beta, incomplete_beta_inv return NaN as soon as any argument is NaN, including pow(1,NaN), pow(NaN,0.0) and hypot(inf,NaN); lmgamma(NaN,p)=NaN and pow(NaN,n)=NaN for integer n other than 0 and the limits of its type.

*Proof.* Per function: NaN absorbs in every operation used before the guard.

*Theorems.* `C59_one_argument`, `C59_two_arguments`, `C59_three_arguments`, `C59_integer_parameter`

*Outcome.* proved. 

### C60 The C++11 and C++14 implementations agree

The recursive (C++11) and iterative (C++14 and later) implementations selected by the language version return bit-identical results in the kernels of exp, log, tanh, the continued-fraction atan and both continued fractions of erf, for every input of every type; the two power series used by atan for x>2.5 agree in exact arithmetic but are not bit-identical in floating point (float witness near 2.50493).

*Proof.* Induction relating the recursion to the loop; witness for the series.

*Theorems.* `C60_bit_identical`, `C60_atan_series_exact`, `C60_atan_series_differs`

*Outcome.* proved. Bit-identity is FALSE for the power series of atan (C60_atan_series_differs), proved for the other kernels.

### C61 Stored mathematical constants are correct

Each constant GCEM_LOG_2, GCEM_LOG_10, GCEM_PI, GCEM_LOG_PI, GCEM_LOG_2PI, GCEM_LOG_SQRT_2PI, GCEM_SQRT_2, GCEM_HALF_PI, GCEM_SQRT_PI, GCEM_SQRT_HALF_PI, GCEM_E and the ln(2)..ln(10) table is within half a unit of the last printed (fortieth) decimal of the real number; in every floating type the constant obtained is within the rounding of that type and of long double of the real number.

*Proof.* Rational enclosures of pi (Machin), logarithms and square roots to 1e-40 compared with the printed decimals.

*Theorems.* `C61_constants`, `C61_log_table`, `C61_in_type`

*Outcome.* proved. 

### C62 Gauss-Legendre tables integrate polynomials

The tabulated 30- and 50-point Gauss-Legendre nodes lie in (-1,1), come in pairs -x, x with equal positive weights, and are pairwise distinct. The printed tables integrate every polynomial of degree below 60 (respectively 100) over [-1,1] to within 2.1e-32 (1e-32) times the sum of the magnitudes of its coefficients; the stored long double tables to within 2.54e-20 (3.44e-20) times that sum.

*Proof.* Exact rational evaluation of all moments, linearity.

*Theorems.* `C62_printed`, `C62_stored`, `C62_shape`

*Outcome.* proved. 

### C63 log2 and log10 floating-point error bounds

For 1/2 <= x <= 3/2 the relative error of log2(x) and log10(x) is at most 10u; for every finite x >= 1 the error is at most (16 + 10 ln x)u / ln b, b = 2 or 10. They are not exact at powers of the base: log2(8.0) is 3 - 2^-51 (so converting it to an integer gives 2) and log10(1000.0) is 3 + 2^-51.

*Proof.* C37 and C61 and a relative error calculus for the two long double divisions.

*Theorems.* `C63_log2_direct`, `C63_log2_ge_one`, `C63_log10_direct`, `C63_log10_ge_one`, `C63_not_exact`

*Outcome.* proved. Exactness at powers of the base is FALSE (C63_not_exact).

### C64 Accuracy of sinh and cosh

For |x| up to 86 (float), 707 (double), 11354 (long double) the errors of sinh(x) and cosh(x) are at most (106.1u + (|x|+7)2^-62) cosh(x), u the unit roundoff; so cosh has a small relative error everywhere in the range. For sinh no relative error bound holds near 0: sinh(2^-60) is 0 in double.

*Proof.* C33 for exp(x) and exp(-x), one rounding for the sum or difference, exact or underflowing halving.

*Theorems.* `C64_accuracy`, `C64_sinh_not_relative`

*Outcome.* proved. A relative error bound for sinh is FALSE (C64_sinh_not_relative); proved relative to cosh.

### C65 Accuracy of pow with a real exponent

For x >= 1/2 and |y ln x| up to 85 (float), 706 (double), 11353 (long double), pow(x,y) is finite, positive and within a relative error of (105 + 46|y ln x|)u + (|y ln x|+8)2^-62 of x^y. For normal x < 1/2 not within 1e-4 (relatively) of a power of ten the same holds with 67 instead of 46. At x = 1e-14 it fails: pow(1e-14, 1.0) is more than nine times too large in double.

*Proof.* C37 and C33 composed: the absolute error of y*log(x) becomes a relative error of exp. The hypothesis on powers of ten is the one of C37 for small arguments, where the base-ten splitting of the logarithm goes wrong.

*Theorems.* `C65_accuracy`, `C65_small_base`, `C65_wrong`

*Outcome.* proved. FALSE near powers of ten below 1 (C65_wrong); proved elsewhere.

### C66 Accuracy of asin and acos

For every x with smallest normal <= |x| < 1, asin(x) and acos(x) are finite and |asin(x) - arcsin x| <= (16u + 1.64e-17)|arcsin x| + u|x|^3/sqrt(1-x^2), |acos(x) - arccos x| <= (22u + 1.65e-17) arccos x + u|x|^3/sqrt(1-x^2), u the unit roundoff. For |x| <= 1/2 asin has a relative error of at most 17u + 1.64e-17. The last term is not an artefact: near 1 acos loses half of its digits (relative error above 3e-5 in float at 1 - 2880/2^24).

*Proof.* The computed leg sqrt(1-x*x) is the exact leg of a perturbed triangle (C26); replacing a leg changes the angle by at most x|c-c'|/(cc'+x^2); C45 for the arctangent of the rounded quotient.

*Theorems.* `C66_asin`, `C66_asin_half`, `C66_acos`, `C66_acos_cancellation`

*Outcome.* proved. A relative bound for acos near 1 is FALSE (C66_acos_cancellation); proved with the cancellation term.

### C67 Accuracy of atan2

For every finite y and every x with |x| at least the smallest normal number, atan2(y,x) is finite and within (18u + 1.65e-17)|t| + (smallest normal) of the argument t of the complex number x+iy, also when the quotient y/x overflows or underflows. For x = 0 and normal y the result is within 3.2u of +-pi/2. For subnormal x it fails: atan2(2^-1022, 2^-1023) is pi/2 in double, the true angle is below 1.2.

*Proof.* C45 with a relative perturbation lemma for the arctangent; overflow of the quotient through atan(inf); reflection through the stored pi; identification of Complex.arg with arctan in each half plane.

*Theorems.* `C67_accuracy`, `C67_axis`, `C67_subnormal_x`

*Outcome.* proved. FALSE for subnormal x (C67_subnormal_x).

### C68 Accuracy of tanh

For every normal x with |x| <= 1, tanh(x) is within a relative error of 3u of the real hyperbolic tangent (u the unit roundoff); for every normal |x| <= 22 within 13u, in all three types; for |x| <= 2^-40 the result is x itself. Beyond, the fixed depth of 35 levels is not enough (C48: tanh(30.0) > 1).

*Proof.* The exact tails of Lambert's continued fraction are quotients of positive functions with a derivative recurrence; truncation and rounding errors contract by the factor 1-(2d-1)/T_d at each level; the two resulting constants are evaluated exactly in the kernel for x^2 = 1 and 484 and are monotone in x.

*Theorems.* `C68_unit`, `C68_accuracy`, `C68_tiny`

*Outcome.* proved. 

### C69 Accuracy of asinh, acosh and atanh

With u the unit roundoff: for normal -1/4 <= x < 1, |atanh(x) - artanh x| <= (10 + 7|artanh x|)u, and for -1 < x < -1/4 with (1+x)/(1-x) not within 2e-4 (relatively) of a power of ten, (22 + 7|artanh x|)u. For -1/2 <= x <= 3/2, |asinh(x) - arsinh x| <= (27 + 5|arsinh x|)u; for every x > 0 up to the square root of the type's range (2^63, 2^511, 2^8191) (K + 5 arsinh x)u with K = 37 (float), 91 (double), 1007 (long double). For 1 < x <= 2, |acosh(x) - arcosh x| <= (19 + 5 arcosh x + 1.1 x/sqrt(x^2-1))u, and with K instead of 19 up to the same limits. These are absolute bounds: no relative bound holds near 0, asinh(2^-54) and atanh(2^-55) are 0 in double.

*Proof.* C37 for the logarithm at a perturbed argument (a relative perturbation of the argument is an absolute one of the logarithm); C26 for the square root; one relative error per remaining operation, with the amplification of the cancelling subtraction kept as the explicit term for acosh.

*Theorems.* `C69_atanh`, `C69_atanh_neg`, `C69_asinh_mid`, `C69_asinh`, `C69_acosh_near`, `C69_acosh`, `C69_not_relative`

*Outcome.* proved. A relative error bound near 0 is FALSE (C69_not_relative); proved as absolute bounds.

### C70 exp overflow and underflow

Wherever exp(x) is defined (C30): for x >= 89 (float), 710 (double), 11357 (long double) the result is +infinity; for x <= -105, -747, -11358 it is exactly +0. In float and double every x <= -2 gives a nonnegative finite value with error at most 105u e^x plus five times the least positive subnormal (gradual underflow). In long double gradual underflow does not work: exp(-11380) is 0 although e^-11380 is more than 100000 times the least positive value.

*Proof.* C12 bounds the computed power of the stored e from below by 2.71828^n whenever it is finite (powers of a base at least 1 are at least 1, so an infinite one is +inf); for overflow the product with the fractional factor exceeds the range, for underflow the reciprocal is below half the least subnormal.

*Theorems.* `C70_underflow`, `C70_gradual`, `C70_overflow`, `C70_long_double_flush`

*Outcome.* proved. Gradual underflow in long double is FALSE (C70_long_double_flush); proved for float and double.

### C71 Accuracy of erf

For every normal x with |x| <= 2^31, erf(x) is finite and its relative error, against the real error function (2/sqrt(pi)) times the integral of exp(-t^2) from 0 to x, is at most 144u for |x| <= 1/2, 186u for |x| <= 1, 920u for |x| <= 3/2, 80600u for |x| <= 2.100001 and 2.6u beyond; beyond 2.100001 the result is in (0,1] for positive x. The loss below 2.1 is real: in each type erf drops by more than 1000u from 2.1 to the next representable value, so it is not monotone, and erf(2.1) is more than 1000u too large (in float by 2.2e-4).

*Proof.* The two continued fractions are proved to be the classical ones: the small one for confluent hypergeometric ratios M(d,d+1/2,x^2) (series recurrences), the large one for ratios of the repeated integrals of exp(-t^2) (derivatives and limits). Truncation and rounding are propagated level by level by rational interval recurrences evaluated in the kernel (erEv, ecB, ecH) for each unit roundoff, uniformly in x; C33 supplies exp, C70 the tail where exp underflows.

*Theorems.* `C71_accuracy`, `C71_range_large`, `C71_jump`

*Outcome.* proved. Accuracy to a few ulp near 2.1 and monotonicity are FALSE (C71_jump); the bound proved there is 80600u.

### C72 Accuracy of lgamma

With u the unit roundoff: for 1/2 <= x <= 2^90, |lgamma(x) - ln Gamma(x)| <= (111 + 22 x ln(x+6))u + 1.8e-14; for 4u <= x < 1/2 at most (125 + 5/x)u + 1.8e-14 (x - 1 is rounded). Near zero it fails: every x from the smallest normal number up to u/2 gives +infinity although ln Gamma(x) <= -ln x, e.g. lgamma(2^-60) in double. In long double the 15 Lanczos coefficients limit the accuracy (the 1.8e-14 term).

*Proof.* The truncation error of the Lanczos sum is proved for every positive real argument: the functional equation turns it into a series of differences, each a rational function minus a logarithm, bounded with integer polynomial certificates. Rounding of the sum in long double, of log and of the products is propagated; x - 1 is exact on [1/2,2] and its rounding elsewhere is controlled by the convexity of log Gamma. The failure near zero is a closed evaluation at -1.

*Theorems.* `C72_accuracy`, `C72_small`, `C72_tiny`

*Outcome.* proved. Accuracy near zero is FALSE (C72_tiny: +inf up to u/2).

### C73 Accuracy of tgamma for positive arguments

For 1/2 <= x <= 34 (float), 171 (double), 1755 (long double) tgamma(x) is finite, positive and within a relative error of (245 + 27 x ln(x+6))u + 1.9e-14 of Gamma(x); for 8192u <= x < 1/2 within (260 + 8/x)u + 1.9e-14. Near zero it fails: every x from the smallest normal number up to u/2 gives +infinity although Gamma(x) <= 1/x, e.g. tgamma(2^-60) in double.

*Proof.* exp of C72 through C33; the range limits come from factorials, the size of log Gamma from convexity.

*Theorems.* `C73_accuracy`, `C73_small`, `C73_tiny`

*Outcome.* proved. Accuracy near zero is FALSE (C73_tiny: +inf up to u/2). Negative arguments: C77.

### C74 Accuracy of lbeta and beta

For 1/2 <= a, b <= 2^88 lbeta(a,b) is finite and within (335 + 49 (a+b) ln(a+b+6))u + 5.4e-14 of the logarithm of the integral of t^(a-1) (1-t)^(b-1) over [0,1]; where that bound is below 1/1000 and the integral is above e^(1-M) (M = 86, 707, 11354 for float, double, long double), beta(a,b) is positive and within a relative error of (470 + 58 (a+b) ln(a+b+6))u + 5.5e-14 of the integral.

*Proof.* Three applications of C72, the rounding of a + b through slopes of log Gamma (convexity), the beta integral through Gamma(a) Gamma(b) / Gamma(a+b); beta through C33.

*Theorems.* `C74_lbeta_accuracy`, `C74_beta_accuracy`

*Outcome.* proved. 

### C75 Accuracy of log_binomial_coef

For whole numbers 0 <= k <= n < 2^p (p the precision of the type), log_binomial_coef(n,k) is finite and within (335 + 48 (n+2) ln(n+8))u + 5.4e-14 of the natural logarithm of the binomial coefficient n choose k.

*Proof.* Three applications of C72 at whole arguments, which are exact below 2^p; Gamma(n+1) = n!.

*Theorems.* `C75_accuracy`

*Outcome.* proved. 

### C76 Accuracy of lmgamma

For 1 <= p <= 4096 and p/2 <= a <= 2^22 the value lmgamma(a,p) is finite and differs from the logarithm of the multivariate gamma function, p(p-1)/4 ln(pi) + sum over j < p of ln Gamma(a - j/2), by at most p((111 + 22 a ln(a+6) + 7 p (a ln(a+6) + p))u + 1.8e-14), u being the unit roundoff.

*Proof.* Induction on p; each level uses C72, the subtraction of 1/2 is exact because a <= 2^22, and the rounding of the running sum is bounded through the size of log Gamma.

*Theorems.* `C76_accuracy`

*Outcome.* proved. 

### C77 Accuracy of tgamma for negative arguments

Between the poles -n and 1-n (1 <= n <= 2000), at a distance of at least 8192u from the lower pole and 2^-125 from zero, and where |Gamma(x)| is at least twice the smallest normal number, tgamma(x) is finite and within a relative error of (310 + 8/(x+n) + 2n)u + 2e-14 of Gamma(x); in particular its sign alternates correctly between the poles.

*Proof.* Induction on n; x + 1 is exact for x <= -1/2, its rounding on (-1/2,0) is bounded through the slope of log Gamma; each division adds at most 1.5u because the quotient is normal; the start is C73.

*Theorems.* `C77_accuracy`

*Outcome.* proved. 

### C78 Accuracy of incomplete_gamma in the upper tail

Where incomplete_gamma uses its upper continued fraction, 1/2 <= a, a + 10 <= z <= M - 1 (M = 86, 707, 11354 for float, double, long double) and a < 10 or z >= 3.01a, the value incomplete_gamma(a,z) is finite and differs from P(a,z) = (integral of t^(a-1) e^(-t) over [0,z]) / Gamma(a) by at most (2 + (260 + 45 a ln(z+6) + 8z) Q)u + 1.9e-14 Q, where Q = 1 - P(a,z) and u is the unit roundoff.

*Proof.* The tails of the continued fraction are proved to be quotients of the integrals of e^(-s) (s-z)^d s^(a-1-d) over [z,inf) (integration by parts); in the region a relative error at depth d+1 reaches depth d with a factor igB(d) < 1 whose product over 99 levels is below 1e-20, evaluated in the kernel uniformly in a and z; rounding adds up to 7u. The factor in front is exp of a log z - z - lgamma a through C37, C72 and C33.

*Theorems.* `C78_accuracy`

*Outcome.* proved. 

### C79 Accuracy of incomplete_gamma in the central region

Where incomplete_gamma uses its lower continued fraction, 1/2 <= a < 10 and 1/2 <= z <= a + 10 - 2^-20, the value incomplete_gamma(a,z) is finite and has a relative error of at most (330 + 70 a ln(a+z+6) + 10z + 410 M)u + 2.4e-14 with respect to P(a,z) = (integral of t^(a-1) e^(-t) over [0,z]) / Gamma(a), where M = a e^z z^(-a) (integral of t^(a-1) e^(-t) over [0,z]) = 1 + z/(a+1) + z^2/((a+1)(a+2)) + ..., which lies between 1 and 12000 in this region, and u is the unit roundoff.

*Proof.* The tails of the continued fraction are proved to be quotients of Kummer functions M(k,b,z) (contiguous relations between the power series). a is put into one of ten unit cells; in each cell the factor by which an error at depth d+1 reaches depth d is bounded by a rational function of d, and the recursion for truncation and rounding errors over 53 levels is evaluated in the kernel. The first level cancels and multiplies the error by M(1,a+1,z), which is bounded by monotonicity and a finite recursion. The factor in front is the same as in C78.

*Theorems.* `C79_accuracy`

*Outcome.* proved. 

### C80 incomplete_gamma ignores z in the quadrature tail and is NaN for very small a

For 10 <= a <= 2^100 and z <= z' <= 3a, incomplete_gamma(a,z) and incomplete_gamma(a,z') are identical as soon as z >= a + 10.01 sqrt(a), or a <= 50 and z >= a + 5.01 sqrt(a): the upper limit of the quadrature no longer depends on z. Hence the result cannot be accurate there: in every type the values at (10,26) and (10,30), if finite, coincide and at least one of them is off by more than 5e-5 from P(a,z). For a between the smallest normal number and u/2 (u the unit roundoff) and 1/2 <= z <= 9 the result is NaN, although P(a,z) >= 1 - 20a.

*Proof.* The bound quad_ub is the minimum of z and a + c sqrt(a) in the model; the square root is bounded through C26 and the multiplier through its table, so the minimum does not depend on z. The two exact values at a = 10 differ by more than 1e-4 (P(10,z) in closed form by the recurrence in a). For tiny a the call lgamma(a) evaluates log Gamma at a - 1 rounded to -1, which gives infinity; exp of -infinity is 0, divided by the continued fraction 0 gives NaN; the true value is bounded by the upper integral.

*Theorems.* `C80_saturation`, `C80_error`, `C80_tiny`, `C80_tiny_exact`

*Outcome.* proved. 

### C81 Accuracy of incomplete_beta

For 1/2 <= a, b <= 10 and 2^-100 <= z < 1, with z (if below 1/2) and 1 - z (if z is above 1/2) more than 1e-4 relative away from every power of ten and a ln z and b ln(1-z) at least 16 - M (M = 86, 707, 11354 for float, double, long double), incomplete_beta(a,b,z) is finite and differs from I = (integral of t^(a-1) (1-t)^(b-1) over [0,z]) / (the same integral over [0,1]) by at most (16000 + 13 (a |ln z| + b |ln(1-z)|))u + 3e-13, u being the unit roundoff. Where z (a+b+2) <= 0.9999 (a+1) the error is relative: at most ((15000 + 13 a |ln z|)u + 2e-13) I. The exclusion of powers of ten is needed: incomplete_beta(1,1,1e-14) is more than 9.99 times the correct value.

*Proof.* The tails W_n of the continued fraction are ratios of integrals and satisfy the recurrence exactly; the Lentz products are compared with them. The relative deviations of C_n and D_n from their exact counterparts obey a recursion over (n, a, b)-cells that is bounded by a table computed in the kernel (ib_all: for all a, b in each cell, not a sample), the final quotient telescopes, and the stopping criterion bounds the remaining factor. The prefactor comes from C37, C33 and C74, the branch from the error of the computed switching point, and the reflected branch from the exactness of 1 - z (z >= 1/2) or a Lipschitz bound.

*Theorems.* `C81_accuracy`, `C81_lower_accuracy`, `C81_power_of_ten`

*Outcome.* proved. 

### C82 Inverse pairs and identities cancel

With every operation rounded: for x >= 1/2 and ln x <= M-1 (M = 86, 707, 11354), exp(log(x)) differs from x by at most (149 + 10 |ln x|)u x; for -1/2 <= x <= M, log(exp(x)) differs from x by at most (149 + 10|x|)u; for 2^-120 <= x <= 2^120, sqrt(x)*sqrt(x) differs from x by at most 38u x, 144u x, 1940u x in float, double, long double; in float and double, for twice the smallest normal number <= |x| <= 2^20, sin(x)*sin(x)+cos(x)*cos(x) differs from 1 by at most (91|x|+13)u, and for 2^-100 <= |x| <= 1000, tan(atan(x)) differs from x by at most 33(1+x^2)|atan x| u. For small x the first fails: exp(log(1e-14)) is more than 9 times 1e-14 in double.

*Proof.* Composition of the individual error bounds (C26, C33, C37, C43, C45): the first result is a value of the format, so the second bound applies to it, and the real functions are compared by their moduli of continuity (exp and log in relative form, tan by the addition theorem).

*Theorems.* `C82_exp_log`, `C82_exp_log_small`, `C82_log_exp`, `C82_pythagoras`, `C82_sqrt_square`, `C82_tan_atan`

*Outcome.* proved. 

### C83 erf_inv is accurate up to |p| = 0.94

With every operation rounded, for every p with 2^-100 <= |p| <= 0.94, erf_inv(p) is finite and differs from the number y with erf(y) = p by at most 515u|y| for |p| <= 1/2, 1371u|y| for |p| <= 0.83 and 15670u|y| beyond, in float, double and long double; consequently the exact erf of the returned value is within twice that many unit roundoffs of p, relative to p.

*Proof.* The starting polynomial is evaluated with interval arithmetic that includes rounding on 65 cells covering (0, 0.94] (every cell is an interval of arguments, checked in the kernel), against bounds for the inverse error function from alternating Taylor polynomials and the monotonicity of erf(y)/y: the start is within 0.8 percent. One step multiplies the error by at most 0.4958 whatever the clamped Halley denominator is (mean value theorem for erf, the exponential of the previous iterate), and adds the error of erf (C71) divided by the derivative; 60 steps by induction.

*Theorems.* `C83_accuracy`, `C83_backward`

*Outcome.* proved. 

### C84 Calls with integers and mixed types

A two-argument call with an integer and a floating argument is computed in the floating type, whatever the width of the integer (two integers: double; two floating types: the wider one). Converting a floating argument never changes it; an integer is rounded to the type of the call and is unchanged up to 2^p (so every int and unsigned is unchanged in double). Two integers with the same rounding give identical results in fmod, hypot, atan2, log_binomial_coef, incomplete_gamma, incomplete_gamma_inv, max and min. fmod of two integers below 2^53 is the exact remainder, but fmod(n,2) is 0 for every integer n with |n| >= 2^53 (with 2.0f from 2^24 on), odd ones included, and max(16777217, 1.0f) is less than 16777217.

*Proof.* Conversions are the rounding of the format (Verif/Model/Mixed.lean); a wider format contains the narrower one; for fmod an even quotient: every value of the format from 2^p on is even.

*Theorems.* `C84_call_type`, `C84_float_exact`, `C84_int_rounds`, `C84_int32_exact`, `C84_int_collapse`, `C84_max_min_not_bounds`, `C84_fmod_int`, `C84_fmod_two`

*Outcome.* proved. max as an upper bound and fmod(n,2) as a parity test are FALSE (C84_max_min_not_bounds, C84_fmod_two).

### C85 lbeta and beta add integer arguments as integers and keep the narrower precision

lbeta and beta do not convert their arguments before use. With integers of a signed common type the call is undefined behaviour exactly as soon as a + b overflows that type, although the result is an ordinary double; with unsigned integers a + b = 2^w makes lbeta(a,b) minus infinity and beta(a,b) zero. If the sum fits and stays within 2^53, the results are those of the double call. For floating arguments of two types with precisions s and t and w = max(s,t), 1/2 <= a, b <= 2^88, lbeta(a,b) is within (111 + 22 a ln(a+6))/2^s + (111 + 22 b ln(b+6))/2^t + (112 + 27 (a+b) ln(a+b+6))/2^w + 5.4e-14 of the logarithm of the beta integral; the dependence on the narrower precision is real: lbeta(2.5f, 2.5) differs from lbeta(2.5, 2.5) by more than 2^-30.

*Proof.* lgamma is total (C53), so the sum decides; C72 for each of the three logarithms in the type in which it is computed, combined with the same error calculus as C74; the witness is a closed evaluation.

*Theorems.* `C85_int_overflow`, `C85_int_value`, `C85_unsigned_wrap`, `C85_mixed_accuracy`, `C85_mixed_loss`

*Outcome.* proved. Definedness for integers is FALSE (C85_int_overflow); accuracy in the wider type is FALSE (C85_mixed_loss).

### C86 incomplete_beta_inv with integer arguments is undefined

incomplete_beta_inv(a,b,p) with three arguments of one integer type computes in that type. For all a, b >= 0 and both legal probabilities p = 0 and p = 1 the call is undefined behaviour: for a, b > 1 an infinite or NaN double is converted to the integer type; otherwise there is an integer division by zero or an overflow.

*Proof.* Case analysis on the start value: sqrt(-2 log 0) for a, b > 1; otherwise the quotients a/(a+b), b/(a+b) are 0 or undefined, so both auxiliary values are 0 and 0/0 follows. The continuation of the computation is a parameter of the model.

*Theorems.* `C86_undefined`, `C86_cast`

*Outcome.* proved. Definedness is FALSE for all arguments (C86_undefined).

### C87 pow with mixed types

pow(n, y) with an integer n and a floating y is NaN for every negative n and every y, whole numbers included (pow(-3, 2) is 9, pow(-3, 2.0) is NaN). For 0 <= n <= 2^p it is the call with n converted to the type of y, and with two floating types it is the call in the wider type. With an int base and a long long exponent the power is computed in int: it is undefined behaviour whenever the value does not fit int, although the return type long long may hold it (pow(10, 10LL)).

*Proof.* Case analysis on the definition and exactness of the conversions; C08 for the integer exponent.

*Theorems.* `C87_negative_base`, `C87_int_base`, `C87_mixed`, `C87_narrow_base`

*Outcome.* proved. pow(-3,2.0) = 9 is FALSE (C87_negative_base).

### C88 gcd, lcm, binomial_coef and factorial of floating arguments

gcd(a,b) of floating arguments with |a|, |b| < 2^64 is the gcd of the integer parts of |a| and |b|, fractions being dropped, and exact for whole numbers below 2^p; it and lcm are undefined for NaN, infinities and larger arguments. lcm is exact for whole numbers below 2^p, not both zero, with a result up to 2^p, and lcm(0.0,0.0) is NaN. binomial_coef(n,k) is the binomial coefficient of the integer parts modulo 2^64, rounded, for arguments above -1 and below 2^64, and undefined otherwise. factorial(n) for whole n up to 33, 170, 1754 (float, double, long double) has a relative error of at most (245 + 27 (n+1) ln(n+7))u + 1.9e-14.

*Proof.* The conversion to unsigned long long is the integer part where it is defined; then C01, C06 for the integers, exactness of the two floating operations of lcm, and C73 with Gamma(n+1) = n!.

*Theorems.* `C88_gcd`, `C88_gcd_undefined`, `C88_gcd_int`, `C88_lcm_int`, `C88_lcm_zero`, `C88_binomial`, `C88_binomial_undefined`, `C88_factorial`

*Outcome.* proved. 

### C89 Integer types narrower than int

For 8- and 16-bit integer types: abs is never undefined, is |x| except at the lowest value of a signed type, where it returns that negative value. factorial(n) is n! modulo 2^bits for n < 21 and a signed overflow (undefined) from 21 on, also for the unsigned types. binomial_coef(n,k) for n >= 0 is undefined exactly if the coefficient does not fit int, and otherwise the coefficient modulo 2^bits. pow with a floating base and an exponent of such a type is +infinity at the largest exponent of the type and 0 at the smallest of a signed type, for every base (pow(1.0, (signed char)127) and pow(0.5, (signed char)127) are infinite), and otherwise equals the call with an int exponent; with an integer base the result at the largest exponent is 0.

*Proof.* Promotion to int and conversion back are explicit in Verif/Model/Narrow.lean; C04, C06 and C08 for int.

*Theorems.* `C89_abs`, `C89_factorial`, `C89_binomial`, `C89_pow`, `C89_pow_witness`, `C89_powI`

*Outcome.* proved. abs >= 0 and wrapping of unsigned factorials are FALSE (C89_abs, C89_factorial).

### C90 How deep the recursions nest

The number of nested calls, which -fconstexpr-depth (512 by default) limits in a constant expression: the decimal splitting in log takes at most 39, 309, 4933 calls of mantissa (float, double, long double) for every positive normal argument, and one more of find_exponent, but in long double 512 are too few for every x >= 1e513 and, in mantissa, for every normal x <= 1e-512. sqrt takes at most 9, 44, 635 calls of sqrt_simplify, and in long double 512 are too few from 1e4097 on. tgamma(x) for a non-integer x with -n-1 < x < -n takes exactly n+2. gcd of any two integers takes at most 47 (32 bits) or 93 (64 bits) calls, and both are attained. factorial(n) takes exactly n-19 for n >= 20, pow with an integer base and exponent e exactly the number of binary digits of e. binomial_coef(n,k) with 0 <= k <= n makes exactly 2 C(n,k) - 1 calls in total.

*Proof.* The number of nested calls is an argument of the model functions (noReturn when used up): for the floating-point ones it is the fuel they carry anyway, for the integer ones Verif/Model/Depth.lean adds it and it is proved equal to the model without it. Upper bounds by induction with one rounding per step, lower bounds likewise; Lame's bound with Fibonacci numbers for gcd; Pascal's rule for the number of calls of binomial_coef.

*Theorems.* `C90_log_depth`, `C90_log_short`, `C90_sqrt_depth`, `C90_sqrt_short`, `C90_tgamma_depth`, `C90_gcd_depth`, `C90_gcd_depth_sharp`, `C90_factorial_depth`, `C90_pow_depth`, `C90_pow_depth_sharp`, `C90_binomial_calls`

*Outcome.* proved. That a depth of 512 suffices is FALSE for long double (C90_log_short, C90_sqrt_short) and for tgamma below -511 (C90_tgamma_depth).

### C91 Square roots of exact squares

If r and r*r are both representable, r*r is a normal number and 2^-89 <= r <= 10, then sqrt(r*r) is exactly r, in float, double and long double; in particular sqrt(n*n) == n for n = 1..10. Beyond 100 this is false: sqrt(169.0) is 13 - 2^-49, sqrt(196.0f) and sqrt(196.0L) exceed 14. If t = y/x, t*t, 1 + t*t and the root s <= 10 of that are representable, hypot(x,y) is |x|*s correctly rounded, so hypot(4a,3a) == 5|a| for every a; but the order of the arguments matters: hypot(12.0,9.0) is 15 and hypot(9.0,12.0) is 15 - 2^-49, hypot(5.0,12.0) is 13 - 2^-49.

*Proof.* The root of an exact square has at most about half the digits of the format, so from an iterate within 3u (analysis of C26) the next one rounds to the root exactly; the stopping test can only fire at the root, by monotonicity of rounding; the reductions up to 100 divide by 4, exactly. Witnesses beyond 100 by kernel evaluation.

*Theorems.* `C91_exact_square`, `C91_small_integers`, `C91_not_beyond`, `C91_hypot`, `C91_hypot_4_3`, `C91_hypot_order`

*Outcome.* proved. That sqrt(r*r) == r for all representable squares is FALSE beyond 100 (C91_not_beyond); that hypot is symmetric is FALSE (C91_hypot_order).

### C92 The quantile of the exponential distribution

For every representable p with 1/2 <= p <= 0.95, incomplete_gamma_inv(1, p) is finite and differs from -ln(1-p), the p-quantile of the exponential distribution, by at most (6350 u + 10^-13)/(1-p), u = 2^-prec; equivalently the exact distribution function 1 - exp(-r) of the returned r differs from p by at most 6400 u + 2*10^-13. This holds in float, double and long double, on both sides of the switch of starting formula at p = 0.627.

*Proof.* Start values: p/t below t = 0.627 (error at most 0.11 by convexity of the logarithm) and 1 - log((1-p)/(1-t)) above it (error 1 + ln(1-t)), with the rounding errors of pow and log from C65 and C37. One step multiplies the error by at most 0.57, once the error is below 0.02 by at most 0.31, whatever the clamped Halley denominator is and with the derivative of the previous iterate (slope of the exponential function between two points), and adds the error of incomplete_gamma(1, v) (C79) divided by the derivative. Eight steps in the first regime, 28 in the second.

*Theorems.* `C92_accuracy`, `C92_backward`

*Outcome.* proved. Only the shape parameter 1 and 1/2 <= p <= 0.95 are covered; for other shape parameters only the boundary cases (C58) are proved.

### C93 The quantile of the uniform distribution

For every representable p with 1/8 <= p <= 7/8, incomplete_beta_inv(1, 1, p) is finite and differs from p, the exact p-quantile of the uniform distribution, by at most 16110 u + 3*10^-13, u = 2^-prec, in float, double and long double. This does not extend to all p: in float, incomplete_beta_inv(1, 1, 1e-6f) is NaN.

*Proof.* The start value is p up to 0.004 (pow with exponent 1, C65). The computed density is a constant D with 1 <= D <= 1 + 4u, whatever the iterate, and the second derivative is exactly zero, so the Halley denominator is exactly 1 and a step is v - (I(v) - p)/D. Its result is within the error of incomplete_beta(1, 1, v) (C81) plus 2u of p no matter how good v was, so one step suffices and the others keep the bound. The NaN at 1e-6f by kernel evaluation of all 36 steps.

*Theorems.* `C93_accuracy`, `C93_nan`

*Outcome.* proved. Only a = b = 1 and 1/8 <= p <= 7/8 are covered. That the result is finite for all p in (0,1) is FALSE in float (C93_nan).

### C94 When results keep the order of the arguments

With u = 2^-prec: exp(x) < exp(y) whenever y >= x + 210 u + (max(|x|,|y|)+7)/2^60 in the range where exp is finite and normal; log(x) < log(y) for 1/2 <= x whenever x <= y (1 - (36 + 10 |ln y|) u); sqrt(x) < sqrt(y) for x >= 2^-180 (2^-126 in float) whenever y >= x (1 + 13 u) for y <= 4, and in general whenever y exceeds x by the factor 1 + 73/2^24, 1 + 285/2^53, 1 + 3877/2^64 (float, double, long double); atan(x) < atan(y) for normal 0 < x < y whenever y - x > (24 u + 4e-17)(1 + y^2) arctan y. Closer arguments can be reversed: for exp (float and double), atan and tanh (float) there are neighbouring numbers x < y with f(y) < f(x), and in double log(1e-14) > log(5e-14).

*Proof.* From the error bounds C33, C37, C26 and the bound on atan: two relative (or absolute) errors are smaller than the distance of the exact values, which comes from exp(t) >= 1 + t, 1 - 1/t <= log t, the square root of a product, and the addition theorem of the arctangent. The reversed pairs by kernel evaluation.

*Theorems.* `C94_exp`, `C94_log`, `C94_log_small`, `C94_sqrt_upto4`, `C94_sqrt`, `C94_atan`, `C94_neighbours`

*Outcome.* proved. That exp, log, atan and tanh are monotone is FALSE (C94_neighbours, C94_log_small); for sqrt and for log on [1/2, inf) no reversed pair is known. tanh has only the negative result.

### C95 Functions that must agree with each other

With u = 2^-prec and results of the library on both sides: round(tgamma(n+1)) is exactly n! for n up to 7, 15, 16 (float, double, long double), and tgamma(n+1) differs from n! by the relative error (245 + 27 (n+1) ln(n+7))u + 1.9e-14 wherever n! is finite; |tgamma(x+1) - x tgamma(x)| is at most ((490 + 54 (x+1) ln(x+7))u + 3.8e-14) Gamma(x+1) for x >= 1/2 with x+1 representable and at most 34, 171, 1755; |exp(x+y) - exp(x) exp(y)| at most ((313 + 2|x+y|)u + (|x|+|y|+7)/2^60) e^(x+y) if |x| and |y| are at most a quarter of the largest m for which exp(-m) is a normal number (m rounded down); |log(xy) - log(x) - log(y)| at most (48 + 10 ln(xy))u for x, y >= 1; |asin(x) + acos(x) - pi/2| at most 95u + 8e-17 + 2u |x|^3/sqrt(1-x^2); |pow(x, 0.5) - sqrt(x)| at most 180 u sqrt(x) on [1/2, 4]; |cosh^2 - sinh^2 - 1| at most (430u + (|x|+7)/2^59) cosh^2(x). None of these is exact: tgamma(4.0f) is below 6, so converting it to int gives 5, tgamma(3.0) is below 2, exp(1.0)^2 is below exp(2.0), cosh^2(1.0) - sinh^2(1.0) exceeds 1.

*Proof.* From the error bounds C73, C33, C37, C66, C65, C26 and C64 and the exact identities of the real functions, adding the rounding of the argument of the one side (x+y, xy). round(tgamma(n+1)) = n! because the error is below 1/2 and round is exact (C18). The inequalities at the end by kernel evaluation.

*Theorems.* `C95_tgamma_succ`, `C95_tgamma_factorial`, `C95_tgamma_round`, `C95_exp_add`, `C95_log_mul`, `C95_asin_acos`, `C95_pow_half`, `C95_cosh_sinh`, `C95_inexact`

*Outcome.* proved. That tgamma(n+1) == n! where n! is representable is FALSE, likewise the exact form of the other identities (C95_inexact).

### C96 Results on the right side of 0 and 1

sqrt(x) >= 1 for every x >= 1 (infinity included); hypot(x, y) >= |x| for every finite y and every x with |x| at least the least normal number; wherever exp is defined, exp(x) >= 1 for x >= 0 and 0 <= exp(x) <= 1 for x <= 0, and therefore expm1(x) >= 0 for finite x >= 0, -1 <= expm1(x) <= 0 for finite x <= 0 and sinh(x) >= 0 for x >= 0; for x >= 1/2, log(x) is positive exactly if x > 1, zero exactly if x == 1 and negative exactly if x < 1, and log(x) < 0 for every normal x < 1/2 outside a 1e-5 neighbourhood of 0.1; cosh(x) >= 1 for |x| >= 1/100 where exp(|x|) and exp(-|x|) are finite and normal; for |x| <= 2^31, erf(x) lies between 0 and 1 for x >= 0 and between -1 and 0 for x <= 0, where in float 1.98 < |x| <= 2.100001 is left open. Two neighbours of these facts fail: hypot(x, y) >= |y| (hypot(1.0f, 4002.0f) is below 4002, hypot(1.0, 100007919.0) below 100007919, and hypot(x, 0) is 0 for subnormal x), and incomplete_gamma(a, z) <= 1 (in float, incomplete_gamma(0.25f, 7.0f) is 1.00001 and incomplete_gamma(1.25f, 11.0f) is 1.00016).

*Proof.* sqrt: after the first step no Newton iterate leaves [1, 4] (rounding is monotone and 1 is representable, so half of a sum that is at least 2 is at least 1), and the reductions keep argument and multiplier at least 1. exp: the denominator 1 - x/r of the continued fraction is rounded from a number on the right side of 1; for |x| >= 2 the power of e decides. log and erf: the relative error (C37, C71) is less than the distance of the exact value from 0 or 1; for erf with a lower bound on the complementary error function. The counterexamples by kernel evaluation.

*Theorems.* `C96_sqrt`, `C96_hypot`, `C96_hypot_second`, `C96_exp`, `C96_sinh`, `C96_log`, `C96_log_small`, `C96_expm1`, `C96_cosh`, `C96_erf`, `C96_incomplete_gamma_exceeds`

*Outcome.* proved. hypot(x,y) >= |y| and incomplete_gamma <= 1 are FALSE (C96_hypot_second, C96_incomplete_gamma_exceeds). Open: cosh(x) >= 1 for 0 < |x| < 1/100, |erf| <= 1 in float for 1.98 < |x| <= 2.1.

### C97 Scaling and reflecting the arguments of hypot, atan2 and fmod

Let s be a power of two, s >= 1, and s*x and s*y representable. hypot(s*x, s*y) is s*hypot(x, y) bit for bit for all normal x and y (overflowing to infinity exactly if the product does). atan2(s*y, s*x) and atan2(y, x) are identical for every normal x and every finite y. fmod(s*x, s*y) is s*fmod(x, y) bit for bit for normal y with |y| <= |x|, |x|*s and |x/y| less than half the overflow threshold. For all x and y including infinities and NaN, fmod(-x, y) is -fmod(x, y) and fmod(x, -y) is fmod(x, y), in value (the sign of a zero aside) and in which calls are undefined. In the range just given fmod(x, y) is finite, |fmod(x, y)| <= |x|, and it differs by at most 3u|x| from x - n*y for an integer n that differs from x/y by at most 1 + u|x/y|, u = 2^-prec. With a factor 3 in place of a power of two this fails: hypot(9.0, 15.0) and 3*hypot(3.0, 5.0) differ in the last bit.

*Proof.* Rounding commutes with multiplication by 2^k, k >= 0, on normal numbers, and a scaled representable number is representable until it overflows; the quotient y/x is literally the same number. For fmod the product n*y is normal, and the difference is either normal or, below the least normal number, exact. The error bound adds the rounding of the product and of the difference; n comes from the rounded quotient. The factor 3 by kernel evaluation.

*Theorems.* `C97_hypot`, `C97_atan2`, `C97_fmod_reflect`, `C97_fmod_error`, `C97_fmod`, `C97_hypot_not_three`

*Outcome.* proved. Invariance under scaling by other factors is FALSE (C97_hypot_not_three). The bound on fmod says nothing about the exact remainder when |x/y| is large, where n may be wrong by u|x/y|; see C24 for what fails there.

### C98 Whole numbers recovered from computed results

What rounding or truncating a result gives where the exact result is a whole number or must be compared with one. floor(sqrt(m)) is the integer square root of every whole m >= 1 up to 2^18, 2^45, 2^53 (float, double, long double) that is at most 100 or not a square; at larger squares it can be one too small: floor(sqrt(169.0)) is 12, floor(sqrt(256.0f)) and floor(sqrt(256.0L)) are 15. floor(sqrt(m + 0.5)) is the integer square root of every whole m up to 2^17, 2^44, 2^52, and round(sqrt(n*n)) is n whenever n*n <= 2^prec. floor(log10(n)) + 1 is the number of decimal digits of every whole n >= 1 below 2^16, 2^44, 10^15; floor(log10(1e15L)) is 14. floor(log2(n)) + 1 is the number of binary digits of every n up to 2^16, 2^44, 2^55 that is not a power of two, but floor(log2(8.0)) is 2 and floor(log2(32768.0f)) is 14; round(log2(2^k)) is k for every finite power of two, k >= 1. round(pow(b, n)) with floating b >= 1 and n holding whole numbers is b^n up to 2^13, 2^40, 2^51, while floor(pow(2.0, 2.0)) is 3, floor(pow(7.0f, 2.0f)) 48 and floor(pow(3.0L, 3.0L)) 26. round(exp(log_binomial_coef(n, k))) is the binomial coefficient for n <= 20, 1000, 1000 and values up to 1000, 2^32, 2^42.

*Proof.* From the error bounds C26, C63, C65, C75 and C33: the exact value is further from the next whole number than the error (m and the next square differ by at least 1; log n and the logarithm of a power of the base by at least 1/(n+1)), and floor and round are exact on normal numbers (C15, C18). Squares up to 100 by C91, powers of ten by kernel evaluation of all representable ones below the bound. The failures by kernel evaluation.

*Theorems.* `C98_isqrt`, `C98_isqrt_half`, `C98_sqrt_round`, `C98_isqrt_fails`, `C98_log2_floor`, `C98_log10_floor`, `C98_log_floor_fails`, `C98_log2_round`, `C98_pow_round`, `C98_binomial_round`, `C98_pow_floor_fails`

*Outcome.* proved. That floor(sqrt(n*n)) == n, floor(log2(2^k)) == k and floor(pow(b,n)) == b^n is FALSE (C98_isqrt_fails, C98_log_floor_fails, C98_pow_floor_fails).

### C99 Poisson, binomial and normal probabilities

The incomplete gamma and beta functions are what statistics code calls for distribution functions. For a whole number 1 <= n < 10 and 1/2 <= z <= n + 10 - 2^-20, incomplete_gamma(n, z) is P, the probability that a Poisson variable with mean z is at least n, with relative error at most (330 + 70 n ln(n+z+6) + 10 z + 410 K)u + 2.4e-14 where K = (n!/z^n)(e^z - sum_{k<n} z^k/k!). For whole n and z >= n + 10 (z >= 3.01 n if n >= 10, and z at most 85, 706, 11353 in float, double, long double) the error is at most (2 + (260 + 45 n ln(z+6) + 8 z) Q)u + 1.9e-14 Q with Q = 1 - P. incomplete_beta(k, n+1-k, p) is the probability of at least k successes in n trials of probability p, with absolute error at most 17000u + 3e-13, for 1 <= k <= n, k and n+1-k at most 10, 1/500 <= p <= 499/500, p and 1-p not within 1e-5 of 0.1 or 1e-6 of 0.01. incomplete_gamma(0.5, z) is erf(sqrt(z)), the probability that the square of a normal variable of variance 1/2 is at most z, with absolute error at most (580 + 205 sqrt(pi/z) e^z)u + 2.4e-14 for 1/2 <= z <= 10.

*Proof.* C79, C78 and C81 bound the distance from the integrals; the integrals are evaluated in closed form: repeated integration by parts gives the Poisson sum, the derivative of the binomial tail telescopes (derivative of the Bernstein polynomials) and gives the beta density, and the substitution t = s^2 turns the case 1/2 into the error function.

*Theorems.* `C99_poisson`, `C99_poisson_tail`, `C99_binomial`, `C99_chi_square_one`

*Outcome.* proved. Only whole shape parameters (and 1/2) have closed forms; the general accuracy statements are C78, C79 and C81.

### C100 Accuracy of incomplete_gamma near zero

For 1/2 <= a < 10 and 2^-100 <= z < 1/2, z not within a relative 1e-4 of a power of ten, and z^a >= e^-42, incomplete_gamma(a, z) is within a relative error of (940 + 52 a + 17 a |ln z| + 38 a ln(a+6))u + 2.4e-14 of the regularised lower incomplete gamma function, u = 2^-prec. In particular, for a whole number 1 <= n < 10 and 1/500 <= z < 1/2 with z^n >= 1e-18 (z not within 1e-5 of 0.1 or 1e-6 of 0.01), incomplete_gamma(n, z) is the probability that a Poisson variable with mean z is at least n, within the relative error (940 + 160 n + 17 n |ln z|)u + 2.4e-14; the error stays relative although the probability goes down to 1e-23.

*Proof.* The error analysis of the continued fraction in C79 does not use that z is large; the exponent a log z - z - lgamma(a) is analysed with the bound C37 for small arguments, and the sum of the series is at most 3/2 for z <= 1/2. The Poisson sum as in C99.

*Theorems.* `C100_accuracy`, `C100_poisson`

*Outcome.* proved. Next to powers of ten see C101, where the result can be ten times too large.

### C101 Logarithms and powers at 0.1, 0.01, 0.001, ...

At a negative power of ten as written in a program (the representable number next to 10^-k) log may be wrong by ln 10, because mantissa and exponent are split off by different multiplications. In float, for k = 1 to 37, log(x) is within (26 + 11 k)u of ln(10^-k) for k = 1, 3, 5, 9, 13, 17, 18, 21, 22 and within the same distance of ln(10^(1-k)) for all other k. In double, for k = 1 to 30, it is right except for k = 11, 12, 13, 14, where it is close to ln(10^(1-k)), and k = 21, 29, where it is close to ln(10^(-k-1)). In long double, for k = 1 to 15, it is close to ln(10^(-k-1)) for k = 1, 5, 7, 9, 11, 13, 14, 15, close to ln(0.1) for k = 2, and right for the others. So log10(0.01f) == -1 and log10(0.1L) == -2 exactly, pow(0.01f, 1.0f) is above 0.0999, pow(0.1L, 1.0L) is below 0.01001, and incomplete_beta(1.0f, 1.0f, 0.01f) and incomplete_gamma(1.0f, 0.01f) are above 0.099, ten times the exact value.

*Proof.* mantissa and find_exponent are evaluated by the kernel at every power of ten in the range; from there on C37's analysis of the remaining operations, and ln m is close to 0 or to ln 10. The examples by kernel evaluation.

*Theorems.* `C101_log_float`, `C101_log_double`, `C101_log_long_double`, `C101_log10`, `C101_pow`, `C101_incomplete`

*Outcome.* proved. That log is accurate for all normal arguments is FALSE (C101_log_float, C101_log_double, C101_log_long_double).

### C102 Quantiles of the gamma distribution that are not numbers

incomplete_gamma_inv(a, p) solves for the quantile by Halley steps that are divided by the derivative at the previous iterate and are not confined to positive values. Whatever a, p and the derivative are, once an iterate is below zero and at least two further steps are due, the call returns NaN or has undefined behaviour; it never recovers. This happens for ordinary arguments: in double, for shape 2 and every representable p from 3e-7 to 1e-6, whose quantiles lie between 0.0007 and 0.0015, the call never returns a number (NaN or undefined); incomplete_gamma_inv(2, 0.000001) and incomplete_gamma_inv(5, 0.000001) are NaN, although the quantiles are 0.0014 and 0.169, and incomplete_gamma_inv(2, 0.99999999), whose value is 21.4, has undefined behaviour (conversion out of range), so that it does not compile as a constant expression.

*Proof.* The logarithm of a negative iterate is NaN, so is the derivative for the next step, and the step after it; incomplete_gamma of NaN is NaN, by induction to the end. Undefined behaviour can only come from exp (C57). For shape 2 the start value is exactly 1e-4 for every p of the range (interval arithmetic through log, C37, sqrt, C26, and the rational function); the first step overshoots to between 0.0025 and 0.0084, and the second, still divided by the density at 1e-4, leads below zero because incomplete_gamma(2, v) >= 0.49 v^2 (C100). The examples by kernel evaluation of the whole iteration.

*Theorems.* `C102_every`, `C102_negative_iterate`, `C102_nan`, `C102_undefined`

*Outcome.* proved. That incomplete_gamma_inv returns a number for all a > 0, 0 < p < 1 is FALSE (C102_every, C102_nan, C102_undefined). See C92 for a range in which it is accurate.

## 6. Mutation testing

`seeded/LOG.jsonl` records 160 deliberate faults: one edit of a model definition each, applied in a scratch copy,
with the theorems that stopped compiling.  A mutant that survived led to a new or sharper theorem, recorded in the
field `tightened`.  Six survivors were run again under a new id and were then detected (e14, e17, e21, t4, t8, s16).
Three were not run again after the new theorem (s7, s12, s14), and one is an equivalent program (x13).  The faults g2,
g5 and g7 first broke only an outcome proof tied to the wording of the definition, whose statement still holds for
them; with that proof loosened, g2 and g5 are detected by the accuracy proofs of C92 (g2b, g5b), and g7 was not run
again.
