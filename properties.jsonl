{"id": "C01", "title": "gcd is the greatest common divisor, and is defined except at the minimum value", "statement": "For signed or unsigned integer arguments a and b of any types of rank at least int, gcd(a,b) returns the nonnegative greatest common divisor of the mathematical values (0 for gcd(0,0)) with no undefined behaviour, provided no signed argument equals the minimum of its type. If a signed argument equals the minimum of its type the call is undefined (negation overflows). Mixed signed/unsigned calls are correct too.", "quantifier": "all pairs of values of all pairs of int, unsigned, long, unsigned long, long long, unsigned long long", "why_tests_cant": "The argument space is 2^128 pairs for 64-bit types; correctness needs the Euclid invariant and undefined behaviour at the edge is invisible to a runtime test.", "anchors": ["include/gcem_incl/gcd.hpp:gcd", "include/gcem_incl/gcd.hpp:internal::gcd_recur", "include/gcem_incl/abs.hpp:abs"]}
{"id": "C02", "title": "lcm is the least common multiple whenever that is representable, and undefined otherwise", "statement": "For two integers of the same type, not both zero and neither equal to the signed minimum: if the least common multiple of |a| and |b| is representable then lcm(a,b) returns it; if it is not representable, lcm is undefined for signed types and returns the value modulo 2^w for unsigned types. lcm(0,0) divides by zero, so it is undefined although the mathematical value is 0.", "quantifier": "all pairs of values of one integer type of rank at least int", "why_tests_cant": "Overflow boundaries are arithmetic in both arguments and cannot be enumerated; undefined behaviour is not observable by running.", "anchors": ["include/gcem_incl/lcm.hpp:lcm", "include/gcem_incl/lcm.hpp:internal::lcm_compute", "include/gcem_incl/gcd.hpp:gcd"]}
{"id": "C03", "title": "Mixed-signedness lcm is wrong for negative arguments", "statement": "lcm of a negative signed integer and an unsigned integer of at least the same rank converts the negative value to unsigned before taking the absolute value, so the result is the lcm of a huge number, not of |a|; it agrees with the mathematical lcm whenever both arguments are nonnegative and the result is representable in the common type.", "quantifier": "all pairs (a,b) with a of a signed type and b of an unsigned type", "why_tests_cant": "A single test shows one failure but not which inputs are safe.", "anchors": ["include/gcem_incl/lcm.hpp:internal::lcm_type_check", "include/gcem_incl/abs.hpp:abs"]}
{"id": "C04", "title": "factorial of an integer equals n! exactly when representable", "statement": "For an integer type and argument n>=0: if n! is representable in the type, factorial(n) = n!. For unsigned types factorial(n) = n! mod 2^w for every n. For signed types with n >= 21 the call is undefined for 64-bit types (signed overflow), and for 32-bit int n in 13..20 silently returns n! reduced modulo 2^32.", "quantifier": "all n of all integer types of rank at least int", "why_tests_cant": "Needs induction over the recursion and a modular-arithmetic invariant for unsigned types; UB is not observable.", "anchors": ["include/gcem_incl/factorial.hpp:factorial", "include/gcem_incl/factorial.hpp:internal::factorial_table", "include/gcem_incl/factorial.hpp:internal::factorial_recur"]}
{"id": "C05", "title": "factorial of a negative integer is not rejected", "statement": "For every negative integer argument, factorial returns the (truncated) value of 20!, not an error or a NaN.", "quantifier": "all negative values of every signed integer type", "why_tests_cant": "Universal over negative inputs; unit tests only use small nonnegative inputs.", "anchors": ["include/gcem_incl/factorial.hpp:internal::factorial_table"]}
{"id": "C06", "title": "binomial_coef of integers is the binomial coefficient exactly when it fits", "statement": "For integers n>=0 and any k, of one type: if C(n,k) (0 for k<0 or k>n) and every binomial coefficient reached by the Pascal recursion fit, binomial_coef(n,k) returns C(n,k); for signed types it is undefined iff C(n,k) is not representable; for unsigned types it equals C(n,k) mod 2^w.", "quantifier": "all n,k of an integer type of rank at least int", "why_tests_cant": "Double recursion over an unbounded Pascal triangle; needs induction and monotonicity of intermediates.", "anchors": ["include/gcem_incl/binomial_coef.hpp:binomial_coef", "include/gcem_incl/binomial_coef.hpp:internal::binomial_coef_recur"]}
{"id": "C07", "title": "binomial_coef with negative n is undefined", "statement": "For a signed type, n<0 and k different from 0 and from n, binomial_coef(n,k) never returns: the recursion decrements n until signed overflow.", "quantifier": "all n<0 and k of every signed integer type", "why_tests_cant": "Infinite descent cannot be tested; the claim is over all negative n.", "anchors": ["include/gcem_incl/binomial_coef.hpp:internal::binomial_coef_recur"]}
{"id": "C08", "title": "pow with an integer base and nonnegative integer exponent is exact when representable", "statement": "For an integer base b and an integer exponent e>=0 different from the maximum of its type: if b^e is representable in the base type then pow(b,e) returns b^e with no undefined behaviour; for unsigned base types it returns b^e mod 2^w; for signed base types it is undefined if b^e is not representable.", "quantifier": "all bases and all nonnegative exponents below the type maximum", "why_tests_cant": "Square-and-multiply has intermediates that might overflow although the result fits; requires an invariant over all exponents.", "anchors": ["include/gcem_incl/pow_integral.hpp:internal::pow_integral", "include/gcem_incl/pow_integral.hpp:internal::pow_integral_compute_recur", "include/gcem_incl/pow.hpp:pow"]}
{"id": "C09", "title": "pow with integer exponent at the limits of its type gives wrong answers", "statement": "With an integer base, pow(b, max of exponent type) returns 0 for every b, including pow(1,max) (should be 1); pow(b, min of exponent type) returns 0 for every b. With integer base 0 and a negative exponent the call divides by zero; with exponent -max it always divides by zero.", "quantifier": "all integer bases b", "why_tests_cant": "Universal over bases; UB is unobservable.", "anchors": ["include/gcem_incl/pow_integral.hpp:internal::pow_integral_sanity_check"]}
{"id": "C10", "title": "pow with a negative exponent on integer bases truncates the reciprocal", "statement": "For an integer base b with |b|>=2 and exponent e with -max<e<0 and b^|e| representable, pow(b,e)=0; for b=1 it is 1; for b=-1 it is (-1)^|e|.", "quantifier": "all bases and all negative exponents above the type minimum", "why_tests_cant": "Universal over both arguments.", "anchors": ["include/gcem_incl/pow_integral.hpp:internal::pow_integral_compute"]}
{"id": "C11", "title": "pow with floating base and integer exponent obeys sign, unit and zero rules for every value", "statement": "For a floating-point base x (any value, NaN and infinities included) and an integer-typed exponent e with e, -e and e different from the limits of its type: pow(x,0)=1, pow(x,1)=x, pow(1,e)=1; pow(-x,e) equals pow(x,e) for even e and -pow(x,e) for odd e, bit for bit; pow(2,e) is exactly 2^e for |e| < emax, +inf above and +0 below (even where 2^e is a representable subnormal). At the maximum of the exponent type the result is +inf, at its minimum and at minus the maximum it is 0, whatever the base (also base 1).", "quantifier": "all bases of all three floating types, all exponents of the integer type", "why_tests_cant": "Ranges over all bit patterns and exponents; the sign law is an induction over the square-and-multiply recursion.", "anchors": ["include/gcem_incl/pow_integral.hpp:internal::pow_integral", "include/gcem_incl/is_odd.hpp:internal::is_odd", "include/gcem_incl/is_even.hpp:internal::is_even"]}
{"id": "C12", "title": "pow with floating base and integer exponent: rounding error bound", "statement": "For a finite nonzero base x and an integer-typed exponent n >= 0 (not the maximum of its type): if |x| >= 1, or |x|^n stays clear of the subnormal range, pow(x,n) is an infinity or x^n times a factor in [(1-u)^(n-1), (1+u)^(n-1)] with u the unit roundoff; for |x| >= 1 it is finite whenever (|x|(1+u))^n is below the overflow limit; a negative exponent adds one rounding. pow(m,n) is exactly m^n for integer-valued m with |m|^n <= 2^p.", "quantifier": "all finite bases of all three types and all exponents in the stated range", "why_tests_cant": "A bound over all inputs needs error analysis, not samples.", "anchors": ["include/gcem_incl/pow_integral.hpp:internal::pow_integral_compute_recur"]}
{"id": "C13", "title": "abs, sgn, signbit, copysign, neg_zero agree with IEEE semantics on every non-NaN value", "statement": "abs(x) is |x| with +0 for both zeros; sgn(x) is -1, 0 or 1; signbit(x) is the IEEE sign bit (true for -0); copysign(x,y) has the magnitude of x and the sign of y, including zeros and infinities; neg_zero(x) is true exactly for -0. For integers abs(x)=|x| and is undefined exactly at the signed minimum.", "quantifier": "all non-NaN floating values, all integers", "why_tests_cant": "All bit patterns including signed zero and infinities.", "anchors": ["include/gcem_incl/abs.hpp:abs", "include/gcem_incl/sgn.hpp:sgn", "include/gcem_incl/signbit.hpp:signbit", "include/gcem_incl/copysign.hpp:copysign", "include/gcem_incl/neg_zero.hpp:internal::neg_zero"]}
{"id": "C14", "title": "max and min select the larger and smaller argument and treat NaN asymmetrically", "statement": "For non-NaN floating x,y: max(x,y) and min(x,y) each return one of the arguments, bound both, and pick opposite arguments unless x==y. If either argument is NaN both functions return the second argument. For integers whose values fit the common type they are the mathematical maximum and minimum; with mixed signedness the comparison happens after conversion, so max(-1,1u) is 4294967295 and min(-1,1u) is 1.", "quantifier": "all pairs of values", "why_tests_cant": "Every pair including NaN and zeros of both signs.", "anchors": ["include/gcem_incl/max.hpp:max", "include/gcem_incl/min.hpp:min"]}
{"id": "C15", "title": "floor is exact for every non-subnormal value", "statement": "For float, double and long double: if x is finite and not subnormal, floor(x) is the greatest integer not above x, exactly, with no undefined conversion; floor of NaN, infinities and zeros returns the argument.", "quantifier": "all values of all three types", "why_tests_cant": "2^32, 2^64, 2^80 bit patterns; relies on cast range and large-magnitude thresholds at 2^23/2^52/2^63.", "anchors": ["include/gcem_incl/floor.hpp:floor", "include/gcem_incl/floor.hpp:internal::floor_check", "include/gcem_incl/floor.hpp:internal::floor_check_internal", "include/gcem_incl/floor.hpp:internal::floor_int"]}
{"id": "C16", "title": "ceil is exact for every non-subnormal value", "statement": "For float, double and long double: if x is finite and not subnormal, ceil(x) is the least integer not below x, exactly, with no undefined conversion; ceil of NaN, infinities and zeros returns the argument.", "quantifier": "all values of all three types", "why_tests_cant": "As for floor.", "anchors": ["include/gcem_incl/ceil.hpp:ceil", "include/gcem_incl/ceil.hpp:internal::ceil_check", "include/gcem_incl/ceil.hpp:internal::ceil_check_internal"]}
{"id": "C17", "title": "trunc is exact for every value other than subnormals", "statement": "For all three floating types: if x is finite and not subnormal, trunc(x) is x rounded toward zero, exactly, with no undefined conversion; NaN, infinities, zeros are returned unchanged.", "quantifier": "all values of all three types", "why_tests_cant": "As for floor.", "anchors": ["include/gcem_incl/trunc.hpp:trunc", "include/gcem_incl/trunc.hpp:internal::trunc_check", "include/gcem_incl/trunc.hpp:internal::trunc_check_internal"]}
{"id": "C18", "title": "round is exact (half away from zero) for every value other than subnormals", "statement": "For all three floating types: if x is finite and not subnormal, round(x) is the nearest integer with ties away from zero, exactly (including the values just below 1/2 and the range just below 2^p), with no undefined conversion; NaN, infinities, zeros are returned unchanged.", "quantifier": "all values of all three types", "why_tests_cant": "The classical failure inputs (0.5-ulp, 2^52..2^53) are isolated points; needs all values.", "anchors": ["include/gcem_incl/round.hpp:round", "include/gcem_incl/round.hpp:internal::round_check", "include/gcem_incl/round.hpp:internal::round_check_internal", "include/gcem_incl/round.hpp:internal::round_int"]}
{"id": "C19", "title": "floor, ceil, trunc and round return subnormals unchanged", "statement": "For every nonzero subnormal x, floor(x)=ceil(x)=trunc(x)=round(x)=x, which is not an integer: so floor(-denorm) is not -1, ceil(denorm) is not 1, trunc(denorm) is not 0.", "quantifier": "all nonzero subnormal values of all three types", "why_tests_cant": "Universal over the subnormal range; tests use ordinary magnitudes.", "anchors": ["include/gcem_incl/floor.hpp:internal::floor_check", "include/gcem_incl/ceil.hpp:internal::ceil_check", "include/gcem_incl/trunc.hpp:internal::trunc_check", "include/gcem_incl/round.hpp:internal::round_check"]}
{"id": "C20", "title": "Rounding functions: ordering, idempotence and reflection laws", "statement": "For every value of every floating type floor, ceil, trunc and round are free of undefined behaviour and idempotent; for every finite x, floor(x) <= x <= ceil(x) and floor(x) <= trunc(x) <= ceil(x); ceil(-x) = -floor(x), trunc(-x) = -trunc(x), round(-x) = -round(x) up to the sign of a zero. All four are monotone on zeros and normal values, but not across subnormals.", "quantifier": "all values of all three floating types", "why_tests_cant": "Two-variable universal statements.", "anchors": ["include/gcem_incl/floor.hpp:floor", "include/gcem_incl/ceil.hpp:ceil", "include/gcem_incl/trunc.hpp:trunc", "include/gcem_incl/round.hpp:round"]}
{"id": "C21", "title": "Integral arguments of rounding functions pass through double", "statement": "floor, ceil, trunc and round of an integer n return double(n) correctly rounded: equal to n exactly when n is representable as double, in particular for all |n| <= 2^53, and not for e.g. 2^53+1.", "quantifier": "all integers of all integer types", "why_tests_cant": "Universal over 64-bit integers.", "anchors": ["include/gcem_incl/floor.hpp:floor", "include/gcem_incl/ceil.hpp:ceil", "include/gcem_incl/gcem_options.hpp:return_t"]}
{"id": "C22", "title": "fmod is exact on integer-valued arguments below 2^p", "statement": "For integer-valued floating x,y with |x|,|y| < 2^(p) and y != 0, fmod(x,y) is the exact truncated remainder: value x - y*trunc(x/y), with magnitude below |y| and the sign of x or zero.", "quantifier": "all pairs of integer-valued arguments in the exact range", "why_tests_cant": "Rounded division could cross an integer; proof needs the rounding argument over all pairs.", "anchors": ["include/gcem_incl/fmod.hpp:fmod", "include/gcem_incl/fmod.hpp:internal::fmod_check", "include/gcem_incl/trunc.hpp:trunc"]}
{"id": "C23", "title": "fmod special values", "statement": "fmod returns NaN if either argument is NaN or either is infinite (std::fmod(x, inf) is x instead), and NaN for y = 0.", "quantifier": "all pairs with a NaN, infinite or zero divisor argument", "why_tests_cant": "Universal over the other argument.", "anchors": ["include/gcem_incl/fmod.hpp:internal::fmod_check"]}
{"id": "C24", "title": "fmod is not a remainder in general", "statement": "For |x|<|y| with x/y not subnormal, fmod(x,y)=x; but in general the bound |fmod(x,y)|<|y| fails for large quotients, and for quotients that underflow to the subnormal range fmod(x,y) differs from x.", "quantifier": "all finite pairs with |x|<|y| for the positive part; existence for the failures", "why_tests_cant": "The positive part is universal; the failures are isolated inputs.", "anchors": ["include/gcem_incl/fmod.hpp:internal::fmod_check"]}
{"id": "C25", "title": "sqrt: special values and domain", "statement": "sqrt(NaN)=NaN, sqrt(x)=NaN for every x<0 (including -inf and negative subnormals), sqrt(+inf)=+inf, sqrt(x)=+0 for zeros of either sign and for every positive subnormal, sqrt(1)=1; for every value of every floating type the call returns without undefined behaviour, and a positive normal argument gives a positive finite result.", "quantifier": "all values of all three floating types", "why_tests_cant": "Termination and absence of UB for all bit patterns.", "anchors": ["include/gcem_incl/sqrt.hpp:sqrt", "include/gcem_incl/sqrt.hpp:internal::sqrt_check", "include/gcem_incl/sqrt.hpp:internal::sqrt_simplify", "include/gcem_incl/sqrt.hpp:internal::sqrt_recur"]}
{"id": "C26", "title": "sqrt error bound", "statement": "For every normal positive float, |sqrt(x) - real root| <= 18*2^-24 relative; for every finite double x >= 2^-180 the bound is 71*2^-53; for every finite long double x >= 2^-180 it is 969*2^-64; for 2^-180 <= x <= 4 (no argument reduction) it is 3u in every type.", "quantifier": "all values in the stated ranges of all three types", "why_tests_cant": "Accuracy over 2^63 inputs; needs Newton convergence and rounding analysis.", "anchors": ["include/gcem_incl/sqrt.hpp:internal::sqrt_recur", "include/gcem_incl/sqrt.hpp:internal::sqrt_simplify"]}
{"id": "C27", "title": "sqrt is inaccurate for very small arguments", "statement": "For every normal positive x <= 1/4 of every type sqrt(x) is at least 2^-100 (the Newton iteration starts near 1, each of at most 100 steps at best halves the iterate, and small arguments are not scaled up); hence for every normal x <= 2^-(200+2k) the result is at least 2^k times the real square root, e.g. sqrt(1e-300) is wrong by more than 100 orders of magnitude.", "quantifier": "all normal x <= 1/4 of all three types, all k", "why_tests_cant": "Isolated range not sampled by tests.", "anchors": ["include/gcem_incl/sqrt.hpp:internal::sqrt_recur"]}
{"id": "C28", "title": "inv_sqrt: special values and failures", "statement": "inv_sqrt(NaN)=NaN, inv_sqrt(x<0)=NaN, inv_sqrt(+inf)=+0, inv_sqrt(0)=inv_sqrt(positive subnormal)=+inf, inv_sqrt(1)=1. On [2^-60, 2^60] the result is within 3u (relative) of 1/sqrt(x) in every type. For every finite x >= 1 the result is at least x/2^101, so for x >= 2^(2m) it is too large by a factor of at least 2^(3m-101); and inv_sqrt(2^-1000) is +inf for double.", "quantifier": "all values of all three types", "why_tests_cant": "Universal over inputs; failing region not sampled.", "anchors": ["include/gcem_incl/inv_sqrt.hpp:inv_sqrt", "include/gcem_incl/inv_sqrt.hpp:internal::inv_sqrt_check", "include/gcem_incl/inv_sqrt.hpp:internal::inv_sqrt_recur"]}
{"id": "C29", "title": "hypot: special values, sign insensitivity, error bound, and asymmetry", "statement": "hypot is free of undefined behaviour; it is NaN if any argument is NaN (also when the other is infinite), otherwise +inf if any is infinite, |y| if x is zero or subnormal, |x| if y is. hypot(-x,y)=hypot(x,-y)=hypot(x,y) bit for bit. For normal arguments with |y| <= 2^62|x| (float), 2^510|x| (double), 2^8190|x| (long double) the result is +inf or within 22, 75, 973 units of 2^-24, 2^-53, 2^-64 (relative) of the Euclidean norm. It is not symmetric: hypot(1,3) differs from hypot(3,1), and hypot(2^-600,2^600) is +inf while hypot(2^600,2^-600) is 2^600.", "quantifier": "all pairs of values of each floating type", "why_tests_cant": "Two-argument universal.", "anchors": ["include/gcem_incl/hypot.hpp:hypot", "include/gcem_incl/hypot.hpp:internal::hypot_check", "include/gcem_incl/hypot.hpp:internal::hypot_compute"]}
{"id": "C30", "title": "exp: special values and where it is undefined", "statement": "exp(NaN)=NaN, exp(-inf)=+0, exp(+inf)=+inf, exp(x)=1 for |x| below the smallest positive normal. For finite x of type float or double the call is undefined exactly when x < -2^63 or x >= 2^63 (out-of-range conversion to long long), although the real value is 0 or overflows; for long double the undefined set is x < -2^63, x = -2^63+1/2 and x >= 2^63-1/2.", "quantifier": "all values of all three types", "why_tests_cant": "UB is unobservable; boundary is a single value per type.", "anchors": ["include/gcem_incl/exp.hpp:exp", "include/gcem_incl/exp.hpp:internal::exp_check", "include/gcem_incl/exp.hpp:internal::exp_split", "include/gcem_incl/find_whole.hpp:internal::find_whole"]}
{"id": "C31", "title": "find_whole/find_fraction split x exactly", "statement": "For every finite x with |x| >= 1 the split used by exp is exact: x = W + r without rounding, W an integer. For x>0 the fraction r is in [-1/2,1/2); for x<0 it is in [0,1/2) or [3/2,2) (so -1.5 is split as -3 + 1.5, contrary to the documented range). find_whole returns W, and is undefined exactly when W is not a long long value.", "quantifier": "all finite values of all three types with |x| >= 1", "why_tests_cant": "Exactness of floating subtraction for all x.", "anchors": ["include/gcem_incl/find_whole.hpp:internal::find_whole", "include/gcem_incl/find_fraction.hpp:internal::find_fraction"]}
{"id": "C32", "title": "exp truncation error of the continued fraction", "statement": "Evaluated in exact rational arithmetic (rounding switched off), exp(x) for |x| < 2 differs from the real e^x by at most 1e-18 relative, so the fixed 25-level continued fraction contributes less error than one rounding to long double.", "quantifier": "all rational x with |x| < 2", "why_tests_cant": "A truncation bound over a continuum.", "anchors": ["include/gcem_incl/exp.hpp:internal::exp_cf", "include/gcem_incl/exp.hpp:internal::exp_cf_recur", "include/gcem_incl/exp.hpp:internal::exp_split"]}
{"id": "C33", "title": "exp floating-point error bound", "statement": "For every float x in [-86, 88], every double x in [-707, 709] and every long double x in [-11354, 11356], exp(x) is a positive finite value and |exp(x) - e^x| <= (104 u + (|x|+7) 2^-62) e^x with u = 2^-24, 2^-53, 2^-64 the unit roundoff of the type; for |x| < 2 the bound is (101.2 u + 1.1e-18) e^x.", "quantifier": "all values of the three floating types in the stated ranges", "why_tests_cant": "2^62 inputs; needs rounding-error analysis.", "anchors": ["include/gcem_incl/exp.hpp:internal::exp_cf_recur", "include/gcem_incl/exp.hpp:internal::exp_split", "include/gcem_incl/pow_integral.hpp:internal::pow_integral_compute"]}
{"id": "C34", "title": "expm1: special values, error bounds on both branches", "statement": "expm1(NaN)=NaN, expm1(+inf)=+inf, expm1(-inf)=-1, signed zeros are preserved, and it is undefined exactly where exp is. For |x| <= 1e-4 (subnormals included) the relative error is at most 2u. For larger |x| in the range of exp it is exp(x)-1 with error at most (105u + (|x|+8)2^-62) e^x + u|e^x-1|; this is not relative to e^x-1: there is a double between 1e-4 and 1.01e-4 at which the relative error exceeds 10000u.", "quantifier": "all values of all three types", "why_tests_cant": "Bound over a continuum; branch agreement for all inputs.", "anchors": ["include/gcem_incl/expm1.hpp:expm1", "include/gcem_incl/expm1.hpp:internal::expm1_compute", "include/gcem_incl/expm1.hpp:internal::expm1_check"]}
{"id": "C35", "title": "log: special values, domain, termination", "statement": "log(NaN)=NaN, log(x)=NaN for x<0 and -inf, log(x)=-inf for zeros and every positive subnormal, log(+inf)=+inf, log(1)=0; for every value no undefined behaviour occurs and the recursions terminate, for a positive normal argument within emax+2 nested calls (130 for float, 1026 for double, 16386 for long double).", "quantifier": "all values of all three types", "why_tests_cant": "Termination and UB-freedom for all bit patterns.", "anchors": ["include/gcem_incl/log.hpp:log", "include/gcem_incl/log.hpp:internal::log_check", "include/gcem_incl/log.hpp:internal::log_breakup", "include/gcem_incl/mantissa.hpp:internal::mantissa", "include/gcem_incl/find_exponent.hpp:internal::find_exponent"]}
{"id": "C36", "title": "log splits its argument consistently for x >= 1 but not for small x", "statement": "For every finite x >= 1 the decimal mantissa m in [1,10] and exponent k used by log belong together: m*10^k = x*theta with (1-u)^k <= theta <= (1+u)^k. For small x they may disagree by one power of ten: log(1e-14) (double) uses mantissa 9.99... with exponent -14 and returns a value above -30, although the real logarithm is below -32.", "quantifier": "all finite x >= 1 of all three types; a witness for small x", "why_tests_cant": "The inconsistent inputs are isolated doubles.", "anchors": ["include/gcem_incl/log.hpp:internal::log_breakup", "include/gcem_incl/mantissa.hpp:internal::mantissa", "include/gcem_incl/find_exponent.hpp:internal::find_exponent"]}
{"id": "C37", "title": "log floating-point error bound", "statement": "With u = 2^-24, 2^-53, 2^-64 the unit roundoff of float, double, long double: for 1/2 <= x <= 3/2, |log(x) - ln x| <= 5 u |ln x| (a relative bound, also next to the zero at 1); for every finite x >= 1, |log(x) - ln x| <= (15 + 5 ln x) u; for every normal x < 1/2, |log(x) - (ln x + j ln 10)| <= (40 + 5 |ln x|) u with j in {-1,0,1}, and j = 0 unless x is within 1e-4 (relative) of a power of ten.", "quantifier": "all normal positive floating values of all three types", "why_tests_cant": "The bound is against the real logarithm for about 2^63 inputs; sampling gives no universal bound and compares against another approximation.", "anchors": ["include/gcem_incl/log.hpp:log", "include/gcem_incl/log.hpp:internal::log_cf_main", "include/gcem_incl/log.hpp:internal::log_breakup", "include/gcem_incl/log.hpp:internal::log_mantissa", "include/gcem_incl/mantissa.hpp:mantissa", "include/gcem_incl/find_exponent.hpp:find_exponent"]}
{"id": "C38", "title": "log, log2, log10 of negative integers return 0", "statement": "log(n), log2(n) and log10(n) of an integer-typed n<0 return 0 instead of NaN; log(0) of integer type is -inf; log(1)=0; for n>=2 the result is that of the double overload.", "quantifier": "all integers of all integer types", "why_tests_cant": "Universal over negative integers.", "anchors": ["include/gcem_incl/log.hpp:internal::log_integral_check", "include/gcem_incl/log2.hpp:log2", "include/gcem_incl/log10.hpp:log10"]}
{"id": "C39", "title": "log1p: special values, error bounds on both branches", "statement": "log1p(NaN)=NaN, log1p(+inf)=+inf, log1p(-1)=-inf, NaN for every x < -1, signed zeros are preserved, never undefined. For |x| <= 1e-4 (subnormals included) the relative error is at most 2u. For larger |x| it is log(1+x) of the rounded sum: for -1/2 <= x <= 1/2 the error is at most (2 + 5|ln(1+x)|)u, for 0 <= x <= 2^126 at most (17 + 5 ln(1+x))u; this is not relative: there is a double between 1e-4 and 1.01e-4 at which the relative error exceeds 9000u.", "quantifier": "all values of all three types", "why_tests_cant": "Bound over a continuum.", "anchors": ["include/gcem_incl/log1p.hpp:log1p", "include/gcem_incl/log1p.hpp:internal::log1p_compute"]}
{"id": "C40", "title": "pow with real exponents: domain and special values", "statement": "pow(x,y) with a floating exponent: NaN if x or y is NaN or x<0 (also for whole y, e.g. pow(-2.0,2.0)); for x zero or positive subnormal: 0 for y>0, +inf for y<0, NaN for y=0; pow(1,y)=1 for finite y and NaN for infinite y; pow(+inf,y) is +inf, 0, NaN for y>0, y<0, y=0. pow(2.0,2.0) is not exactly 4 and pow(2.0,1e300) is undefined.", "quantifier": "all pairs of values of each floating type", "why_tests_cant": "Universal over arguments.", "anchors": ["include/gcem_incl/pow.hpp:pow", "include/gcem_incl/pow.hpp:internal::pow_dbl", "include/gcem_incl/pow.hpp:internal::pow_check"]}
{"id": "C41", "title": "sin and tan are odd, cos is even, bit for bit", "statement": "For every floating value x of every type tan(x), sin(x), cos(x) are free of undefined behaviour; tan(-x) = -tan(x) and sin(-x) = -sin(x) up to the sign of a zero result (bit for bit when x/2 is not below the smallest normal), cos(-x) = cos(x) bit for bit; NaN for NaN and for both infinities; below the smallest normal tan and sin are +0 and cos is 1. Large arguments lose all accuracy: tan(1e22)=sin(1e22)=0 and cos(1e22)=1 in double.", "quantifier": "all values of all three types", "why_tests_cant": "All bit patterns.", "anchors": ["include/gcem_incl/tan.hpp:internal::tan_check", "include/gcem_incl/sin.hpp:internal::sin_check", "include/gcem_incl/cos.hpp:internal::cos_check"]}
{"id": "C42", "title": "sin and cos stay in [-1,1] for every input", "statement": "For every floating x, sin(x) and cos(x) (as computed, after rounding) are NaN or lie in [-1,1].", "quantifier": "all values of all types", "why_tests_cant": "Rounding could push the quotient above 1 for isolated inputs; needs a rounding proof.", "anchors": ["include/gcem_incl/sin.hpp:internal::sin_compute", "include/gcem_incl/cos.hpp:internal::cos_compute"]}
{"id": "C43", "title": "Accuracy of tan, sin and cos", "statement": "For |x| <= 2^20, at least the smallest normal number, tan(x) is finite and is the exact tangent of some angle within 20.1u|x| of x (u the unit roundoff); for |x| <= 1 this gives a relative error of at most 81u. For |x| <= 2^20, at least twice the smallest normal number, |sin(x) - real sine| <= 25u|x| and |cos(x) - real cosine| <= 20.1u|x| + 3.7u. For long double, and only where the tangent (for sin and cos: of x/2) is the constant 1.633124e16 returned at the stored pi/2, there is an additional 2^-53 (tan, in the angle) or 2^-51 (sin, cos). At the smallest normal number itself sin returns 0.", "quantifier": "all values of all three types in the stated ranges", "why_tests_cant": "An error bound over a continuum crossing the argument reduction by pi, three continued-fraction depths and the series around pi/2; sampled values cannot bound the worst case next to the poles.", "anchors": ["include/gcem_incl/tan.hpp:internal::tan_cf_main", "include/gcem_incl/sin.hpp:internal::sin_compute", "include/gcem_incl/cos.hpp:internal::cos_compute"]}
{"id": "C44", "title": "atan: odd, special values, range", "statement": "atan(-x) = -atan(x) bit for bit unless |x| is below the smallest normal, where both are +0; atan(NaN)=NaN; atan(+-inf)=+-pi/2 as stored; |atan(x)| never exceeds the stored pi/2, and for every normal x the result is nonzero with the sign of x.", "quantifier": "all values of all three types", "why_tests_cant": "All bit patterns.", "anchors": ["include/gcem_incl/atan.hpp:internal::atan_check", "include/gcem_incl/atan.hpp:internal::atan_begin", "include/gcem_incl/atan.hpp:internal::atan_cf_main", "include/gcem_incl/atan.hpp:internal::atan_series_main"]}
{"id": "C45", "title": "atan: accuracy for every normal argument", "statement": "For every normal x of every type atan(x) is finite and within a relative error of 11u + 1.63e-17 of the real arctangent (u the unit roundoff); more precisely (2.1 + 1.36x^2)u + 1.63e-17 for |x| <= 2.5 and 2u + 8e-18 beyond; for |x| <= 2^-40 the result is x itself.", "quantifier": "all normal values of all three types", "why_tests_cant": "A relative error bound over all arguments, where the implementation switches between five continued-fraction depths and nine series orders.", "anchors": ["include/gcem_incl/atan.hpp:internal::atan_cf_recur", "include/gcem_incl/atan.hpp:internal::atan_series_order_calc"]}
{"id": "C46", "title": "atan2 follows the quadrant table", "statement": "atan2(y,x) is NaN if any argument is NaN. If |x| is at least the smallest normal: atan(y/x) for x>0, atan(y/x) - pi for x<0 and y<0, atan(y/x) + pi for x<0 otherwise, and atan2(-y,x) = -atan2(y,x) for y not zero (up to the sign of a zero result). If |x| is below it: +-pi/2 by the sign of y, and for zero y and x one of +0, -0, +pi, -pi by the signs of the zeros. Deviations from the C library: atan2(inf,inf) is NaN, atan2(-0,-1) is +pi, atan2(-0,1) is +0.", "quantifier": "all pairs of values of each floating type", "why_tests_cant": "Quadrant/sign-of-zero table over all pairs.", "anchors": ["include/gcem_incl/atan2.hpp:atan2", "include/gcem_incl/atan2.hpp:internal::atan2_compute"]}
{"id": "C47", "title": "asin and acos: domain, symmetry, end points", "statement": "asin and acos are free of undefined behaviour and NaN for NaN and every |x|>1; asin is odd bit for bit except at zeros; asin(+-1)=+-pi/2 as stored, acos(1)=0, acos(-1)=pi as stored; acos(-x) = pi - acos(x) as computed, for x>0.", "quantifier": "all values of all three types", "why_tests_cant": "Universal over the domain.", "anchors": ["include/gcem_incl/asin.hpp:internal::asin_compute", "include/gcem_incl/acos.hpp:internal::acos_compute", "include/gcem_incl/asin.hpp:internal::asin_check"]}
{"id": "C48", "title": "tanh: odd, NaN, and not bounded by 1", "statement": "tanh(-x) = -tanh(x) bit for bit unless |x| is below the smallest normal (then +0); tanh(NaN)=NaN; but tanh is not bounded by 1: tanh(30.0) exceeds 1, tanh(1e6) exceeds 1587, and tanh(+-inf) is NaN.", "quantifier": "all values of all three types; witnesses for the failures", "why_tests_cant": "Tests use small arguments only.", "anchors": ["include/gcem_incl/tanh.hpp:internal::tanh_check", "include/gcem_incl/tanh.hpp:internal::tanh_cf"]}
{"id": "C49", "title": "sinh is odd, cosh is even", "statement": "For every value of every type sinh(-x) = -sinh(x) up to the sign of a zero and cosh(-x) = cosh(x) bit for bit, with the same undefined set (finite |x| >= 2^63 for float and double); NaN at NaN; below the smallest normal sinh is +0 and cosh is 1; infinite arguments give sinh = +-inf and cosh = +inf. Small results are lost to cancellation: sinh(1e-17) is 0.", "quantifier": "all values of all three types", "why_tests_cant": "All bit patterns.", "anchors": ["include/gcem_incl/sinh.hpp:internal::sinh_check", "include/gcem_incl/cosh.hpp:internal::cosh_compute"]}
{"id": "C50", "title": "asinh, acosh, atanh: domains and failures", "statement": "asinh, acosh, atanh are free of undefined behaviour; acosh is NaN for NaN and x<1, 0 at 1; atanh is NaN for NaN and |x|>1, +-inf at +-1; asinh(NaN)=NaN. asinh is not odd: asinh(-1e10) is -inf and asinh(-inf) is NaN; asinh(1e200) and acosh(1e200) are +inf although the real value is about 461.", "quantifier": "all values of all three types; witnesses for the failures", "why_tests_cant": "Cancellation region not sampled.", "anchors": ["include/gcem_incl/asinh.hpp:internal::asinh_compute", "include/gcem_incl/acosh.hpp:internal::acosh_compute", "include/gcem_incl/atanh.hpp:internal::atanh_check"]}
{"id": "C51", "title": "erf: odd, +-1 at infinities, NaN", "statement": "erf(-x) = -erf(x) bit for bit unless |x| is below the smallest normal (then +0), erf(NaN)=NaN, erf(+-inf)=+-1. For float and double erf(x) is undefined exactly when the computed x*x is finite and exceeds 2^63; where x*x overflows, erf(x) is exactly 1 (x>0).", "quantifier": "all values of all three types", "why_tests_cant": "All bit patterns.", "anchors": ["include/gcem_incl/erf.hpp:internal::erf_check", "include/gcem_incl/erf.hpp:internal::erf_begin"]}
{"id": "C52", "title": "erf_inv: domain, end points, odd", "statement": "erf_inv(NaN)=NaN, NaN for every |p|>1, +-inf at +-1, and erf_inv(-p) = -erf_inv(p) up to the sign of a zero, with the same undefined set.", "quantifier": "all values of all three types", "why_tests_cant": "All bit patterns through a 60-step iteration.", "anchors": ["include/gcem_incl/erf_inv.hpp:internal::erf_inv_begin", "include/gcem_incl/erf_inv.hpp:internal::erf_inv_recur"]}
{"id": "C53", "title": "lgamma and tgamma: domain, poles, undefined set", "statement": "lgamma is free of undefined behaviour, +inf for every x below the smallest positive normal (including negative non-integers), 0 at 1, NaN at NaN and at +inf. tgamma: NaN at NaN, 1 at 1, +inf at zeros and subnormals, NaN at +inf and at negative integers >= -2^63, undefined at -inf and for x < -2^63; for a negative non-integer x it is tgamma(x+1)/x as computed, at most n+1 nested calls for x >= -n; for positive x away from 1 it is exp(lgamma(x)); tgamma(1e17) is +inf but tgamma(1e18) is undefined.", "quantifier": "all values of all three types", "why_tests_cant": "Termination/UB for all inputs.", "anchors": ["include/gcem_incl/lgamma.hpp:internal::lgamma_check", "include/gcem_incl/lgamma.hpp:internal::lgamma_begin", "include/gcem_incl/tgamma.hpp:internal::tgamma_check"]}
{"id": "C54", "title": "beta and lbeta are symmetric", "statement": "beta(a,b)=beta(b,a) and lbeta(a,b)=lbeta(b,a) bit for bit for all floating arguments; beta(a,b)=exp(lbeta(a,b)).", "quantifier": "all pairs", "why_tests_cant": "All pairs.", "anchors": ["include/gcem_incl/beta.hpp:beta", "include/gcem_incl/lbeta.hpp:lbeta"]}
{"id": "C55", "title": "log_binomial_coef symmetry and lmgamma recursion", "statement": "For integer-valued n,k with |k|,|n-k| <= 2^p, log_binomial_coef(n,k) returns and equals log_binomial_coef(n,n-k) bit for bit; for k=0 and k=n it is zero whenever lgamma(n+1) is finite. lmgamma(a,p) returns for every integer p, is lgamma(a) for p=1 and NaN for p<1, and for p>1 is log(pi)(p-1)/2 + lgamma(a) + lmgamma(a-1/2,p-1) as computed.", "quantifier": "all n, k in range; all a and p", "why_tests_cant": "All pairs.", "anchors": ["include/gcem_incl/log_binomial_coef.hpp:log_binomial_coef", "include/gcem_incl/lmgamma.hpp:lmgamma", "include/gcem_incl/lmgamma.hpp:internal::lmgamma_recur"]}
{"id": "C56", "title": "incomplete_beta: boundaries and reflection", "statement": "incomplete_beta(a,b,z) always terminates; its only undefined behaviour is the out-of-range conversion in exp, reached e.g. at (1e20,1,0.5). NaN if any argument is NaN; otherwise 0 for every z below the smallest positive normal (also negative z); on the upper branch it is 1 - incomplete_beta(b,a,1-z) as computed.", "quantifier": "all triples of values of each floating type", "why_tests_cant": "All triples.", "anchors": ["include/gcem_incl/incomplete_beta.hpp:internal::incomplete_beta_check", "include/gcem_incl/incomplete_beta.hpp:internal::incomplete_beta_decr"]}
{"id": "C57", "title": "incomplete_gamma: boundaries and branch totality", "statement": "incomplete_gamma(a,z) always terminates; its only undefined behaviour is the out-of-range conversion in exp, reached e.g. at (1,1e20) although (1,1e18) gives 1. NaN if any argument is NaN or a<0; otherwise 0 for z below the smallest positive normal (also negative z), then 1 for a below it.", "quantifier": "all pairs of values of each floating type", "why_tests_cant": "All pairs.", "anchors": ["include/gcem_incl/incomplete_gamma.hpp:internal::incomplete_gamma_check", "include/gcem_incl/incomplete_gamma.hpp:internal::incomplete_gamma_begin"]}
{"id": "C58", "title": "incomplete_beta_inv and incomplete_gamma_inv: boundaries", "statement": "incomplete_beta_inv and incomplete_gamma_inv always terminate, their only undefined behaviour being the out-of-range conversion in exp. Both return NaN if any argument is NaN, 0 for p below the smallest positive normal, and 1 respectively +inf at p=1. incomplete_gamma_inv is NaN for p>1; a negative shape parameter is not rejected: incomplete_gamma_inv(-2,0.5)=0.", "quantifier": "all triples / pairs of values of each floating type", "why_tests_cant": "All argument tuples.", "anchors": ["include/gcem_incl/incomplete_beta_inv.hpp:internal::incomplete_beta_inv_check", "include/gcem_incl/incomplete_gamma_inv.hpp:internal::incomplete_gamma_inv_check"]}
{"id": "C59", "title": "NaN propagation", "statement": "abs, floor, ceil, trunc, round, sqrt, inv_sqrt, exp, expm1, log, log1p, log2, log10, tan, sin, cos, asin, acos, atan, sinh, cosh, tanh, asinh, acosh, atanh, erf, erf_inv, lgamma, tgamma return NaN on NaN; atan2, fmod, hypot, pow (floating exponent), beta, lbeta, log_binomial_coef, incomplete_gamma, incomplete_gamma_inv, incomplete_beta, incomplete_beta_inv return NaN as soon as any argument is NaN, including pow(1,NaN), pow(NaN,0.0) and hypot(inf,NaN); lmgamma(NaN,p)=NaN and pow(NaN,n)=NaN for integer n other than 0 and the limits of its type.", "quantifier": "all functions, all positions, all other arguments", "why_tests_cant": "Universal over the other arguments.", "anchors": ["include/gcem_incl/is_nan.hpp:internal::is_nan", "include/gcem_incl/is_nan.hpp:internal::any_nan"]}
{"id": "C60", "title": "The C++11 and C++14 implementations agree", "statement": "The recursive (C++11) and iterative (C++14 and later) implementations selected by the language version return bit-identical results in the kernels of exp, log, tanh, the continued-fraction atan and both continued fractions of erf, for every input of every type; the two power series used by atan for x>2.5 agree in exact arithmetic but are not bit-identical in floating point (float witness near 2.50493).", "quantifier": "all inputs", "why_tests_cant": "Each compiler test only sees one implementation.", "anchors": ["include/gcem_incl/exp.hpp:internal::exp_cf_recur", "include/gcem_incl/log.hpp:internal::log_cf_main", "include/gcem_incl/tanh.hpp:internal::tanh_cf", "include/gcem_incl/erf.hpp:internal::erf_cf_large_recur", "include/gcem_incl/atan.hpp:internal::atan_series_order_calc"]}
{"id": "C61", "title": "Stored mathematical constants are correct", "statement": "Each constant GCEM_LOG_2, GCEM_LOG_10, GCEM_PI, GCEM_LOG_PI, GCEM_LOG_2PI, GCEM_LOG_SQRT_2PI, GCEM_SQRT_2, GCEM_HALF_PI, GCEM_SQRT_PI, GCEM_SQRT_HALF_PI, GCEM_E and the ln(2)..ln(10) table is within half a unit of the last printed (fortieth) decimal of the real number; in every floating type the constant obtained is within the rounding of that type and of long double of the real number.", "quantifier": "each constant, as a statement about real numbers", "why_tests_cant": "A test compares against another floating constant, not the real number.", "anchors": ["include/gcem_incl/gcem_options.hpp", "include/gcem_incl/log.hpp:internal::log_mantissa_integer"]}
{"id": "C62", "title": "Gauss-Legendre tables integrate polynomials", "statement": "The tabulated 30- and 50-point Gauss-Legendre nodes lie in (-1,1), come in pairs -x, x with equal positive weights, and are pairwise distinct. The printed tables integrate every polynomial of degree below 60 (respectively 100) over [-1,1] to within 2.1e-32 (1e-32) times the sum of the magnitudes of its coefficients; the stored long double tables to within 2.54e-20 (3.44e-20) times that sum.", "quantifier": "all real polynomials of degree below 60 / 100", "why_tests_cant": "Universal over polynomials.", "anchors": ["include/gcem_incl/quadrature/gauss_legendre_30.hpp", "include/gcem_incl/quadrature/gauss_legendre_50.hpp"]}
{"id": "C63", "title": "log2 and log10 floating-point error bounds", "statement": "For 1/2 <= x <= 3/2 the relative error of log2(x) and log10(x) is at most 10u; for every finite x >= 1 the error is at most (16 + 10 ln x)u / ln b, b = 2 or 10. They are not exact at powers of the base: log2(8.0) is 3 - 2^-51 (so converting it to an integer gives 2) and log10(1000.0) is 3 + 2^-51.", "quantifier": "all finite values in the stated ranges of all three types", "why_tests_cant": "The bound is against the real logarithm for all inputs.", "anchors": ["include/gcem_incl/log2.hpp:log2", "include/gcem_incl/log10.hpp:log10", "include/gcem_incl/log.hpp:log"]}
{"id": "C64", "title": "Accuracy of sinh and cosh", "statement": "For |x| up to 86 (float), 707 (double), 11354 (long double) the errors of sinh(x) and cosh(x) are at most (106.1u + (|x|+7)2^-62) cosh(x), u the unit roundoff; so cosh has a small relative error everywhere in the range. For sinh no relative error bound holds near 0: sinh(2^-60) is 0 in double.", "quantifier": "all finite values of all three types in the stated range", "why_tests_cant": "An error bound against the real functions for all inputs.", "anchors": ["include/gcem_incl/sinh.hpp:internal::sinh_check", "include/gcem_incl/cosh.hpp:internal::cosh_compute", "include/gcem_incl/exp.hpp:exp"]}
{"id": "C65", "title": "Accuracy of pow with a real exponent", "statement": "For x >= 1/2 and |y ln x| up to 85 (float), 706 (double), 11353 (long double), pow(x,y) is finite, positive and within a relative error of (105 + 46|y ln x|)u + (|y ln x|+8)2^-62 of x^y. For normal x < 1/2 not within 1e-4 (relatively) of a power of ten the same holds with 67 instead of 46. At x = 1e-14 it fails: pow(1e-14, 1.0) is more than nine times too large in double.", "quantifier": "all pairs of values of all three types in the stated ranges", "why_tests_cant": "Two-dimensional continuum; the failing set is a sparse set of bases close to powers of ten.", "anchors": ["include/gcem_incl/pow.hpp:internal::pow_dbl", "include/gcem_incl/pow.hpp:internal::pow_check", "include/gcem_incl/log.hpp:log", "include/gcem_incl/exp.hpp:exp"]}
{"id": "C66", "title": "Accuracy of asin and acos", "statement": "For every x with smallest normal <= |x| < 1, asin(x) and acos(x) are finite and |asin(x) - arcsin x| <= (16u + 1.64e-17)|arcsin x| + u|x|^3/sqrt(1-x^2), |acos(x) - arccos x| <= (22u + 1.65e-17) arccos x + u|x|^3/sqrt(1-x^2), u the unit roundoff. For |x| <= 1/2 asin has a relative error of at most 17u + 1.64e-17. The last term is not an artefact: near 1 acos loses half of its digits (relative error above 3e-5 in float at 1 - 2880/2^24).", "quantifier": "all values of all three types in the stated range", "why_tests_cant": "An error bound over a continuum; the loss near 1 is where 1 - x*x cancels.", "anchors": ["include/gcem_incl/asin.hpp:internal::asin_compute", "include/gcem_incl/asin.hpp:internal::asin_check", "include/gcem_incl/acos.hpp:internal::acos_compute", "include/gcem_incl/acos.hpp:internal::acos_check"]}
{"id": "C67", "title": "Accuracy of atan2", "statement": "For every finite y and every x with |x| at least the smallest normal number, atan2(y,x) is finite and within (18u + 1.65e-17)|t| + (smallest normal) of the argument t of the complex number x+iy, also when the quotient y/x overflows or underflows. For x = 0 and normal y the result is within 3.2u of +-pi/2. For subnormal x it fails: atan2(2^-1022, 2^-1023) is pi/2 in double, the true angle is below 1.2.", "quantifier": "all finite y, all normal x of all three types", "why_tests_cant": "Two-dimensional continuum including overflow and underflow of the quotient and all four quadrants.", "anchors": ["include/gcem_incl/atan2.hpp:internal::atan2_compute", "include/gcem_incl/atan.hpp:atan"]}
{"id": "C68", "title": "Accuracy of tanh", "statement": "For every normal x with |x| <= 1, tanh(x) is within a relative error of 3u of the real hyperbolic tangent (u the unit roundoff); for every normal |x| <= 22 within 13u, in all three types; for |x| <= 2^-40 the result is x itself. Beyond, the fixed depth of 35 levels is not enough (C48: tanh(30.0) > 1).", "quantifier": "all normal values of all three types in the stated range", "why_tests_cant": "An error bound against the real function for all inputs; the truncation depth is fixed while the argument varies.", "anchors": ["include/gcem_incl/tanh.hpp:internal::tanh_cf", "include/gcem_incl/tanh.hpp:internal::tanh_begin", "include/gcem_incl/tanh.hpp:internal::tanh_check"]}
{"id": "C69", "title": "Accuracy of asinh, acosh and atanh", "statement": "With u the unit roundoff: for normal -1/4 <= x < 1, |atanh(x) - artanh x| <= (10 + 7|artanh x|)u, and for -1 < x < -1/4 with (1+x)/(1-x) not within 2e-4 (relatively) of a power of ten, (22 + 7|artanh x|)u. For -1/2 <= x <= 3/2, |asinh(x) - arsinh x| <= (27 + 5|arsinh x|)u; for every x > 0 up to the square root of the type's range (2^63, 2^511, 2^8191) (K + 5 arsinh x)u with K = 37 (float), 91 (double), 1007 (long double). For 1 < x <= 2, |acosh(x) - arcosh x| <= (19 + 5 arcosh x + 1.1 x/sqrt(x^2-1))u, and with K instead of 19 up to the same limits. These are absolute bounds: no relative bound holds near 0, asinh(2^-54) and atanh(2^-55) are 0 in double.", "quantifier": "all normal values of all three types in the stated ranges", "why_tests_cant": "Error bounds against the real functions for all inputs; the cancellation in 1+x and x*x-1 occurs on a continuum.", "anchors": ["include/gcem_incl/asinh.hpp:internal::asinh_compute", "include/gcem_incl/acosh.hpp:internal::acosh_compute", "include/gcem_incl/atanh.hpp:internal::atanh_compute", "include/gcem_incl/atanh.hpp:internal::atanh_check", "include/gcem_incl/log.hpp:log", "include/gcem_incl/sqrt.hpp:sqrt"]}
{"id": "C70", "title": "exp overflow and underflow", "statement": "Wherever exp(x) is defined (C30): for x >= 89 (float), 710 (double), 11357 (long double) the result is +infinity; for x <= -105, -747, -11358 it is exactly +0. In float and double every x <= -2 gives a nonnegative finite value with error at most 105u e^x plus five times the least positive subnormal (gradual underflow). In long double gradual underflow does not work: exp(-11380) is 0 although e^-11380 is more than 100000 times the least positive value.", "quantifier": "all defined values of all three types in the stated ranges", "why_tests_cant": "Universal over the argument, including the subnormal results between the normal range and zero.", "anchors": ["include/gcem_incl/exp.hpp:internal::exp_split", "include/gcem_incl/exp.hpp:internal::exp_check", "include/gcem_incl/pow_integral.hpp:internal::pow_integral_compute"]}
{"id": "C71", "title": "Accuracy of erf", "statement": "For every normal x with |x| <= 2^31, erf(x) is finite and its relative error, against the real error function (2/sqrt(pi)) times the integral of exp(-t^2) from 0 to x, is at most 144u for |x| <= 1/2, 186u for |x| <= 1, 920u for |x| <= 3/2, 80600u for |x| <= 2.100001 and 2.6u beyond; beyond 2.100001 the result is in (0,1] for positive x. The loss below 2.1 is real: in each type erf drops by more than 1000u from 2.1 to the next representable value, so it is not monotone, and erf(2.1) is more than 1000u too large (in float by 2.2e-4).", "quantifier": "all normal values of all three types up to 2^31", "why_tests_cant": "An error bound against the real function on a continuum; the cancellation in the continued fraction grows towards the switch between the two expansions.", "anchors": ["include/gcem_incl/erf.hpp:internal::erf_cf_small_recur", "include/gcem_incl/erf.hpp:internal::erf_cf_small_main", "include/gcem_incl/erf.hpp:internal::erf_cf_large_recur", "include/gcem_incl/erf.hpp:internal::erf_cf_large_main", "include/gcem_incl/erf.hpp:internal::erf_begin", "include/gcem_incl/erf.hpp:erf"]}
{"id": "C72", "title": "Accuracy of lgamma", "statement": "With u the unit roundoff: for 1/2 <= x <= 2^90, |lgamma(x) - ln Gamma(x)| <= (111 + 22 x ln(x+6))u + 1.8e-14; for 4u <= x < 1/2 at most (125 + 5/x)u + 1.8e-14 (x - 1 is rounded). Near zero it fails: every x from the smallest normal number up to u/2 gives +infinity although ln Gamma(x) <= -ln x, e.g. lgamma(2^-60) in double. In long double the 15 Lanczos coefficients limit the accuracy (the 1.8e-14 term).", "quantifier": "all values of all three types in the stated ranges", "why_tests_cant": "An error bound against the real gamma function for all inputs, including the truncation error of the Lanczos sum for every positive argument.", "anchors": ["include/gcem_incl/lgamma.hpp:internal::lgamma_coef_term", "include/gcem_incl/lgamma.hpp:internal::lgamma_term_2", "include/gcem_incl/lgamma.hpp:internal::lgamma_term_1", "include/gcem_incl/lgamma.hpp:internal::lgamma_begin", "include/gcem_incl/lgamma.hpp:internal::lgamma_check"]}
{"id": "C73", "title": "Accuracy of tgamma for positive arguments", "statement": "For 1/2 <= x <= 34 (float), 171 (double), 1755 (long double) tgamma(x) is finite, positive and within a relative error of (245 + 27 x ln(x+6))u + 1.9e-14 of Gamma(x); for 8192u <= x < 1/2 within (260 + 8/x)u + 1.9e-14. Near zero it fails: every x from the smallest normal number up to u/2 gives +infinity although Gamma(x) <= 1/x, e.g. tgamma(2^-60) in double.", "quantifier": "all values of all three types in the stated ranges", "why_tests_cant": "An error bound against the real gamma function for all inputs.", "anchors": ["include/gcem_incl/tgamma.hpp:internal::tgamma_check", "include/gcem_incl/lgamma.hpp:lgamma", "include/gcem_incl/exp.hpp:exp"]}
{"id": "C74", "title": "Accuracy of lbeta and beta", "statement": "For 1/2 <= a, b <= 2^88 lbeta(a,b) is finite and within (335 + 49 (a+b) ln(a+b+6))u + 5.4e-14 of the logarithm of the integral of t^(a-1) (1-t)^(b-1) over [0,1]; where that bound is below 1/1000 and the integral is above e^(1-M) (M = 86, 707, 11354 for float, double, long double), beta(a,b) is positive and within a relative error of (470 + 58 (a+b) ln(a+b+6))u + 5.5e-14 of the integral.", "quantifier": "all pairs of values of all three types in the stated ranges", "why_tests_cant": "Two-dimensional continuum; the difference of logarithms cancels.", "anchors": ["include/gcem_incl/lbeta.hpp:lbeta", "include/gcem_incl/beta.hpp:beta", "include/gcem_incl/lgamma.hpp:lgamma", "include/gcem_incl/exp.hpp:exp"]}
{"id": "C75", "title": "Accuracy of log_binomial_coef", "statement": "For whole numbers 0 <= k <= n < 2^p (p the precision of the type), log_binomial_coef(n,k) is finite and within (335 + 48 (n+2) ln(n+8))u + 5.4e-14 of the natural logarithm of the binomial coefficient n choose k.", "quantifier": "all whole n and k of all three types in the stated range", "why_tests_cant": "Two-parameter infinite family with cancellation of large logarithms.", "anchors": ["include/gcem_incl/log_binomial_coef.hpp:internal::log_binomial_coef_compute", "include/gcem_incl/lgamma.hpp:lgamma"]}
{"id": "C76", "title": "Accuracy of lmgamma", "statement": "For 1 <= p <= 4096 and p/2 <= a <= 2^22 the value lmgamma(a,p) is finite and differs from the logarithm of the multivariate gamma function, p(p-1)/4 ln(pi) + sum over j < p of ln Gamma(a - j/2), by at most p((111 + 22 a ln(a+6) + 7 p (a ln(a+6) + p))u + 1.8e-14), u being the unit roundoff.", "quantifier": "all values a of all three types and all integers p in the stated ranges", "why_tests_cant": "An error bound against a sum of real log-gamma values for infinitely many pairs (a,p), with the recursion depth p arbitrary.", "anchors": ["include/gcem_incl/lmgamma.hpp:internal::lmgamma_recur", "include/gcem_incl/lgamma.hpp:lgamma"]}
{"id": "C77", "title": "Accuracy of tgamma for negative arguments", "statement": "Between the poles -n and 1-n (1 <= n <= 2000), at a distance of at least 8192u from the lower pole and 2^-125 from zero, and where |Gamma(x)| is at least twice the smallest normal number, tgamma(x) is finite and within a relative error of (310 + 8/(x+n) + 2n)u + 2e-14 of Gamma(x); in particular its sign alternates correctly between the poles.", "quantifier": "all negative non-integer values of all three types in the stated ranges", "why_tests_cant": "An error bound against the real gamma function for all inputs; the number of recursive divisions depends on the argument.", "anchors": ["include/gcem_incl/tgamma.hpp:internal::tgamma_check", "include/gcem_incl/lgamma.hpp:lgamma", "include/gcem_incl/exp.hpp:exp"]}
{"id": "C78", "title": "Accuracy of incomplete_gamma in the upper tail", "statement": "Where incomplete_gamma uses its upper continued fraction, 1/2 <= a, a + 10 <= z <= M - 1 (M = 86, 707, 11354 for float, double, long double) and a < 10 or z >= 3.01a, the value incomplete_gamma(a,z) is finite and differs from P(a,z) = (integral of t^(a-1) e^(-t) over [0,z]) / Gamma(a) by at most (2 + (260 + 45 a ln(z+6) + 8z) Q)u + 1.9e-14 Q, where Q = 1 - P(a,z) and u is the unit roundoff.", "quantifier": "all pairs of values of all three types in the stated region", "why_tests_cant": "An error bound against a real integral over a two-dimensional continuum of arguments; the continued fraction is cut at depth 100.", "anchors": ["include/gcem_incl/incomplete_gamma.hpp:internal::incomplete_gamma_cf_2", "include/gcem_incl/incomplete_gamma.hpp:internal::incomplete_gamma_cf_2_recur", "include/gcem_incl/incomplete_gamma.hpp:internal::incomplete_gamma_check"]}
{"id": "C79", "title": "Accuracy of incomplete_gamma in the central region", "statement": "Where incomplete_gamma uses its lower continued fraction, 1/2 <= a < 10 and 1/2 <= z <= a + 10 - 2^-20, the value incomplete_gamma(a,z) is finite and has a relative error of at most (330 + 70 a ln(a+z+6) + 10z + 410 M)u + 2.4e-14 with respect to P(a,z) = (integral of t^(a-1) e^(-t) over [0,z]) / Gamma(a), where M = a e^z z^(-a) (integral of t^(a-1) e^(-t) over [0,z]) = 1 + z/(a+1) + z^2/((a+1)(a+2)) + ..., which lies between 1 and 12000 in this region, and u is the unit roundoff.", "quantifier": "all pairs of values of all three types in the stated region", "why_tests_cant": "An error bound against a real integral over a two-dimensional continuum of arguments; the continued fraction is cut at depth 55 and its first level cancels.", "anchors": ["include/gcem_incl/incomplete_gamma.hpp:internal::incomplete_gamma_cf_1", "include/gcem_incl/incomplete_gamma.hpp:internal::incomplete_gamma_cf_1_recur", "include/gcem_incl/incomplete_gamma.hpp:internal::incomplete_gamma_cf_1_coef", "include/gcem_incl/incomplete_gamma.hpp:internal::incomplete_gamma_check"]}
{"id": "C80", "title": "incomplete_gamma ignores z in the quadrature tail and is NaN for very small a", "statement": "For 10 <= a <= 2^100 and z <= z' <= 3a, incomplete_gamma(a,z) and incomplete_gamma(a,z') are identical as soon as z >= a + 10.01 sqrt(a), or a <= 50 and z >= a + 5.01 sqrt(a): the upper limit of the quadrature no longer depends on z. Hence the result cannot be accurate there: in every type the values at (10,26) and (10,30), if finite, coincide and at least one of them is off by more than 5e-5 from P(a,z). For a between the smallest normal number and u/2 (u the unit roundoff) and 1/2 <= z <= 9 the result is NaN, although P(a,z) >= 1 - 20a.", "quantifier": "all pairs of values of all three types in the stated regions", "why_tests_cant": "An identity between results on a two-dimensional continuum, and a comparison with a real integral; a test sees one pair at a time.", "anchors": ["include/gcem_incl/incomplete_gamma.hpp:internal::incomplete_gamma_quad_ub", "include/gcem_incl/incomplete_gamma.hpp:internal::incomplete_gamma_quad", "include/gcem_incl/incomplete_gamma.hpp:internal::incomplete_gamma_check", "include/gcem_incl/incomplete_gamma.hpp:internal::incomplete_gamma_cf_1", "include/gcem_incl/lgamma.hpp:lgamma"]}
{"id": "C81", "title": "Accuracy of incomplete_beta", "statement": "For 1/2 <= a, b <= 10 and 2^-100 <= z < 1, with z (if below 1/2) and 1 - z (if z is above 1/2) more than 1e-4 relative away from every power of ten and a ln z and b ln(1-z) at least 16 - M (M = 86, 707, 11354 for float, double, long double), incomplete_beta(a,b,z) is finite and differs from I = (integral of t^(a-1) (1-t)^(b-1) over [0,z]) / (the same integral over [0,1]) by at most (16000 + 13 (a |ln z| + b |ln(1-z)|))u + 3e-13, u being the unit roundoff. Where z (a+b+2) <= 0.9999 (a+1) the error is relative: at most ((15000 + 13 a |ln z|)u + 2e-13) I. The exclusion of powers of ten is needed: incomplete_beta(1,1,1e-14) is more than 9.99 times the correct value.", "quantifier": "all triples of values of all three types in the stated region", "why_tests_cant": "An error bound against a real integral over a three-dimensional continuum of arguments; the modified Lentz loop stops on a data-dependent criterion.", "anchors": ["include/gcem_incl/incomplete_beta.hpp:internal::incomplete_beta_cf", "include/gcem_incl/incomplete_beta.hpp:internal::incomplete_beta_decision", "include/gcem_incl/incomplete_beta.hpp:internal::incomplete_beta_coef", "include/gcem_incl/incomplete_beta.hpp:internal::incomplete_beta_begin", "include/gcem_incl/incomplete_beta.hpp:internal::incomplete_beta_check"]}
{"id": "C82", "title": "Inverse pairs and identities cancel", "statement": "With every operation rounded: for x >= 1/2 and ln x <= M-1 (M = 86, 707, 11354), exp(log(x)) differs from x by at most (149 + 10 |ln x|)u x; for -1/2 <= x <= M, log(exp(x)) differs from x by at most (149 + 10|x|)u; for 2^-120 <= x <= 2^120, sqrt(x)*sqrt(x) differs from x by at most 38u x, 144u x, 1940u x in float, double, long double; in float and double, for twice the smallest normal number <= |x| <= 2^20, sin(x)*sin(x)+cos(x)*cos(x) differs from 1 by at most (91|x|+13)u, and for 2^-100 <= |x| <= 1000, tan(atan(x)) differs from x by at most 33(1+x^2)|atan x| u. For small x the first fails: exp(log(1e-14)) is more than 9 times 1e-14 in double.", "quantifier": "all values of the stated types and ranges", "why_tests_cant": "Composition of two functions over every representable argument; tests check a few points with a tolerance.", "anchors": ["include/gcem_incl/exp.hpp:exp", "include/gcem_incl/log.hpp:log", "include/gcem_incl/sqrt.hpp:sqrt", "include/gcem_incl/sin.hpp:sin", "include/gcem_incl/cos.hpp:cos", "include/gcem_incl/tan.hpp:tan", "include/gcem_incl/atan.hpp:atan"]}
{"id": "C83", "title": "erf_inv is accurate up to |p| = 0.94", "statement": "With every operation rounded, for every p with 2^-100 <= |p| <= 0.94, erf_inv(p) is finite and differs from the number y with erf(y) = p by at most 515u|y| for |p| <= 1/2, 1371u|y| for |p| <= 0.83 and 15670u|y| beyond, in float, double and long double; consequently the exact erf of the returned value is within twice that many unit roundoffs of p, relative to p.", "quantifier": "all values of the three types in the stated range", "why_tests_cant": "The iteration uses the derivative of the previous iterate and leaves out the factor 2/sqrt(pi), so it converges only linearly; whether 60 steps suffice for every argument, and how much the error of erf is amplified, is a statement about all arguments.", "anchors": ["include/gcem_incl/erf_inv.hpp:internal::erf_inv_recur", "include/gcem_incl/erf_inv.hpp:internal::erf_inv_initial_val", "include/gcem_incl/erf_inv.hpp:internal::erf_inv_halley", "include/gcem_incl/erf_inv.hpp:erf_inv"]}
{"id": "C84", "title": "Calls with integers and mixed types", "statement": "A two-argument call with an integer and a floating argument is computed in the floating type, whatever the width of the integer (two integers: double; two floating types: the wider one). Converting a floating argument never changes it; an integer is rounded to the type of the call and is unchanged up to 2^p (so every int and unsigned is unchanged in double). Two integers with the same rounding give identical results in fmod, hypot, atan2, log_binomial_coef, incomplete_gamma, incomplete_gamma_inv, max and min. fmod of two integers below 2^53 is the exact remainder, but fmod(n,2) is 0 for every integer n with |n| >= 2^53 (with 2.0f from 2^24 on), odd ones included, and max(16777217, 1.0f) is less than 16777217.", "quantifier": "all integer values of all integer types, all values of the three floating types", "why_tests_cant": "A statement about every integer of 32 and 64 bits; the loss appears only above 2^24 or 2^53.", "anchors": ["include/gcem_incl/gcem_options.hpp:common_t", "include/gcem_incl/gcem_options.hpp:common_return_t", "include/gcem_incl/fmod.hpp:internal::fmod_type_check", "include/gcem_incl/hypot.hpp:internal::hypot_type_check", "include/gcem_incl/atan2.hpp:internal::atan2_type_check", "include/gcem_incl/max.hpp:max", "include/gcem_incl/min.hpp:min"]}
{"id": "C85", "title": "lbeta and beta add integer arguments as integers and keep the narrower precision", "statement": "lbeta and beta do not convert their arguments before use. With integers of a signed common type the call is undefined behaviour exactly as soon as a + b overflows that type, although the result is an ordinary double; with unsigned integers a + b = 2^w makes lbeta(a,b) minus infinity and beta(a,b) zero. If the sum fits and stays within 2^53, the results are those of the double call. For floating arguments of two types with precisions s and t and w = max(s,t), 1/2 <= a, b <= 2^88, lbeta(a,b) is within (111 + 22 a ln(a+6))/2^s + (111 + 22 b ln(b+6))/2^t + (112 + 27 (a+b) ln(a+b+6))/2^w + 5.4e-14 of the logarithm of the beta integral; the dependence on the narrower precision is real: lbeta(2.5f, 2.5) differs from lbeta(2.5, 2.5) by more than 2^-30.", "quantifier": "all integer arguments of all integer types; all pairs of values of all pairs of floating types in the stated range", "why_tests_cant": "Undefined behaviour for half of all pairs of integers; an error bound over a two-dimensional continuum and nine type pairs.", "anchors": ["include/gcem_incl/lbeta.hpp:lbeta", "include/gcem_incl/beta.hpp:beta", "include/gcem_incl/lgamma.hpp:lgamma"]}
{"id": "C86", "title": "incomplete_beta_inv with integer arguments is undefined", "statement": "incomplete_beta_inv(a,b,p) with three arguments of one integer type computes in that type. For all a, b >= 0 and both legal probabilities p = 0 and p = 1 the call is undefined behaviour: for a, b > 1 an infinite or NaN double is converted to the integer type; otherwise there is an integer division by zero or an overflow.", "quantifier": "all nonnegative a and b of all integer types, p in {0,1}", "why_tests_cant": "For all arguments; a test could at most show that some calls do not compile as constant expressions.", "anchors": ["include/gcem_incl/incomplete_beta_inv.hpp:internal::incomplete_beta_inv_type_check", "include/gcem_incl/incomplete_beta_inv.hpp:internal::incomplete_beta_inv_initial_val_1_tval", "include/gcem_incl/incomplete_beta_inv.hpp:internal::incomplete_beta_inv_initial_val_2_s1", "include/gcem_incl/incomplete_beta_inv.hpp:internal::incomplete_beta_inv_initial_val_2"]}
{"id": "C87", "title": "pow with mixed types", "statement": "pow(n, y) with an integer n and a floating y is NaN for every negative n and every y, whole numbers included (pow(-3, 2) is 9, pow(-3, 2.0) is NaN). For 0 <= n <= 2^p it is the call with n converted to the type of y, and with two floating types it is the call in the wider type. With an int base and a long long exponent the power is computed in int: it is undefined behaviour whenever the value does not fit int, although the return type long long may hold it (pow(10, 10LL)).", "quantifier": "all integer bases, all exponents of the stated types", "why_tests_cant": "A statement for all bases and exponents.", "anchors": ["include/gcem_incl/pow.hpp:internal::pow_check", "include/gcem_incl/pow.hpp:pow", "include/gcem_incl/pow_integral.hpp:internal::pow_integral_compute"]}
{"id": "C88", "title": "gcd, lcm, binomial_coef and factorial of floating arguments", "statement": "gcd(a,b) of floating arguments with |a|, |b| < 2^64 is the gcd of the integer parts of |a| and |b|, fractions being dropped, and exact for whole numbers below 2^p; it and lcm are undefined for NaN, infinities and larger arguments. lcm is exact for whole numbers below 2^p, not both zero, with a result up to 2^p, and lcm(0.0,0.0) is NaN. binomial_coef(n,k) is the binomial coefficient of the integer parts modulo 2^64, rounded, for arguments above -1 and below 2^64, and undefined otherwise. factorial(n) for whole n up to 33, 170, 1754 (float, double, long double) has a relative error of at most (245 + 27 (n+1) ln(n+7))u + 1.9e-14.", "quantifier": "all values of all three floating types in the stated ranges", "why_tests_cant": "Infinitely many pairs of arguments; the undefined conversions are invisible to run-time tests.", "anchors": ["include/gcem_incl/gcd.hpp:internal::gcd_int_check", "include/gcem_incl/lcm.hpp:internal::lcm_compute", "include/gcem_incl/binomial_coef.hpp:internal::binomial_coef_check", "include/gcem_incl/factorial.hpp:internal::factorial_recur"]}
{"id": "C89", "title": "Integer types narrower than int", "statement": "For 8- and 16-bit integer types: abs is never undefined, is |x| except at the lowest value of a signed type, where it returns that negative value. factorial(n) is n! modulo 2^bits for n < 21 and a signed overflow (undefined) from 21 on, also for the unsigned types. binomial_coef(n,k) for n >= 0 is undefined exactly if the coefficient does not fit int, and otherwise the coefficient modulo 2^bits. pow with a floating base and an exponent of such a type is +infinity at the largest exponent of the type and 0 at the smallest of a signed type, for every base (pow(1.0, (signed char)127) and pow(0.5, (signed char)127) are infinite), and otherwise equals the call with an int exponent; with an integer base the result at the largest exponent is 0.", "quantifier": "all values of the four types", "why_tests_cant": "The exceptional values depend on the exponent type; typical tests use int.", "anchors": ["include/gcem_incl/abs.hpp:abs", "include/gcem_incl/factorial.hpp:internal::factorial_recur", "include/gcem_incl/binomial_coef.hpp:internal::binomial_coef_recur", "include/gcem_incl/pow_integral.hpp:internal::pow_integral_compute", "include/gcem_incl/pow_integral.hpp:internal::pow_integral_sgn_check"]}
{"id": "C90", "title": "How deep the recursions nest", "statement": "The number of nested calls, which -fconstexpr-depth (512 by default) limits in a constant expression: the decimal splitting in log takes at most 39, 309, 4933 calls of mantissa (float, double, long double) for every positive normal argument, and one more of find_exponent, but in long double 512 are too few for every x >= 1e513 and, in mantissa, for every normal x <= 1e-512. sqrt takes at most 9, 44, 635 calls of sqrt_simplify, and in long double 512 are too few from 1e4097 on. tgamma(x) for a non-integer x with -n-1 < x < -n takes exactly n+2. gcd of any two integers takes at most 47 (32 bits) or 93 (64 bits) calls, and both are attained. factorial(n) takes exactly n-19 for n >= 20, pow with an integer base and exponent e exactly the number of binary digits of e. binomial_coef(n,k) with 0 <= k <= n makes exactly 2 C(n,k) - 1 calls in total.", "quantifier": "all arguments of the stated types", "why_tests_cant": "A statement about the worst case over all arguments; a test measures single calls, and whether a call is accepted depends on the compiler.", "anchors": ["include/gcem_incl/mantissa.hpp:internal::mantissa", "include/gcem_incl/find_exponent.hpp:internal::find_exponent", "include/gcem_incl/sqrt.hpp:internal::sqrt_simplify", "include/gcem_incl/tgamma.hpp:internal::tgamma_check", "include/gcem_incl/gcd.hpp:internal::gcd_recur", "include/gcem_incl/factorial.hpp:internal::factorial_recur", "include/gcem_incl/pow_integral.hpp:internal::pow_integral_compute_recur", "include/gcem_incl/binomial_coef.hpp:internal::binomial_coef_recur"]}
{"id": "C91", "title": "Square roots of exact squares", "statement": "If r and r*r are both representable, r*r is a normal number and 2^-89 <= r <= 10, then sqrt(r*r) is exactly r, in float, double and long double; in particular sqrt(n*n) == n for n = 1..10. Beyond 100 this is false: sqrt(169.0) is 13 - 2^-49, sqrt(196.0f) and sqrt(196.0L) exceed 14. If t = y/x, t*t, 1 + t*t and the root s <= 10 of that are representable, hypot(x,y) is |x|*s correctly rounded, so hypot(4a,3a) == 5|a| for every a; but the order of the arguments matters: hypot(12.0,9.0) is 15 and hypot(9.0,12.0) is 15 - 2^-49, hypot(5.0,12.0) is 13 - 2^-49.", "quantifier": "all representable r in the stated range in all three types; all x with the stated quotient", "why_tests_cant": "There are thousands of such squares in float and billions in double and long double; the tests compare with a tolerance.", "anchors": ["include/gcem_incl/sqrt.hpp:internal::sqrt_recur", "include/gcem_incl/sqrt.hpp:internal::sqrt_simplify", "include/gcem_incl/hypot.hpp:internal::hypot_compute"]}
{"id": "C92", "title": "The quantile of the exponential distribution", "statement": "For every representable p with 1/2 <= p <= 0.95, incomplete_gamma_inv(1, p) is finite and differs from -ln(1-p), the p-quantile of the exponential distribution, by at most (6350 u + 10^-13)/(1-p), u = 2^-prec; equivalently the exact distribution function 1 - exp(-r) of the returned r differs from p by at most 6400 u + 2*10^-13. This holds in float, double and long double, on both sides of the switch of starting formula at p = 0.627.", "quantifier": "all representable p in [1/2, 0.95], all three types", "why_tests_cant": "The interval contains 2^22 floats and 2^51 doubles; the result is the end of 36 damped Halley steps, each calling incomplete_gamma, log and exp.", "anchors": ["include/gcem_incl/incomplete_gamma_inv.hpp:internal::incomplete_gamma_inv_recur", "include/gcem_incl/incomplete_gamma_inv.hpp:internal::incomplete_gamma_inv_begin", "include/gcem_incl/incomplete_gamma_inv.hpp:internal::incomplete_gamma_inv_initial_val_2", "include/gcem_incl/incomplete_gamma_inv.hpp:internal::incomplete_gamma_inv_deriv_1", "include/gcem_incl/incomplete_gamma_inv.hpp:internal::incomplete_gamma_inv_halley"]}
{"id": "C93", "title": "The quantile of the uniform distribution", "statement": "For every representable p with 1/8 <= p <= 7/8, incomplete_beta_inv(1, 1, p) is finite and differs from p, the exact p-quantile of the uniform distribution, by at most 16110 u + 3*10^-13, u = 2^-prec, in float, double and long double. This does not extend to all p: in float, incomplete_beta_inv(1, 1, 1e-6f) is NaN.", "quantifier": "all representable p in [1/8, 7/8], all three types", "why_tests_cant": "The interval contains more than 2^24 floats and 2^53 doubles; the result is the end of 36 damped Halley steps, each calling incomplete_beta, log and exp, after a start value from pow on one of two branches.", "anchors": ["include/gcem_incl/incomplete_beta_inv.hpp:internal::incomplete_beta_inv_recur", "include/gcem_incl/incomplete_beta_inv.hpp:internal::incomplete_beta_inv_begin", "include/gcem_incl/incomplete_beta_inv.hpp:internal::incomplete_beta_inv_initial_val_2", "include/gcem_incl/incomplete_beta_inv.hpp:internal::incomplete_beta_inv_deriv_1", "include/gcem_incl/incomplete_beta_inv.hpp:internal::incomplete_beta_inv_halley"]}
{"id": "C94", "title": "When results keep the order of the arguments", "statement": "With u = 2^-prec: exp(x) < exp(y) whenever y >= x + 210 u + (max(|x|,|y|)+7)/2^60 in the range where exp is finite and normal; log(x) < log(y) for 1/2 <= x whenever x <= y (1 - (36 + 10 |ln y|) u); sqrt(x) < sqrt(y) for x >= 2^-180 (2^-126 in float) whenever y >= x (1 + 13 u) for y <= 4, and in general whenever y exceeds x by the factor 1 + 73/2^24, 1 + 285/2^53, 1 + 3877/2^64 (float, double, long double); atan(x) < atan(y) for normal 0 < x < y whenever y - x > (24 u + 4e-17)(1 + y^2) arctan y. Closer arguments can be reversed: for exp (float and double), atan and tanh (float) there are neighbouring numbers x < y with f(y) < f(x), and in double log(1e-14) > log(5e-14).", "quantifier": "all pairs of representable arguments in the stated ranges", "why_tests_cant": "A statement about all pairs of arguments, of which even float has 2^64; the tests look at single values with a tolerance.", "anchors": ["include/gcem_incl/exp.hpp:internal::exp_check", "include/gcem_incl/log.hpp:internal::log_check", "include/gcem_incl/sqrt.hpp:internal::sqrt_check", "include/gcem_incl/atan.hpp:internal::atan_check", "include/gcem_incl/tanh.hpp:internal::tanh_check"]}
{"id": "C95", "title": "Functions that must agree with each other", "statement": "With u = 2^-prec and results of the library on both sides: round(tgamma(n+1)) is exactly n! for n up to 7, 15, 16 (float, double, long double), and tgamma(n+1) differs from n! by the relative error (245 + 27 (n+1) ln(n+7))u + 1.9e-14 wherever n! is finite; |tgamma(x+1) - x tgamma(x)| is at most ((490 + 54 (x+1) ln(x+7))u + 3.8e-14) Gamma(x+1) for x >= 1/2 with x+1 representable and at most 34, 171, 1755; |exp(x+y) - exp(x) exp(y)| at most ((313 + 2|x+y|)u + (|x|+|y|+7)/2^60) e^(x+y) if |x| and |y| are at most a quarter of the largest m for which exp(-m) is a normal number (m rounded down); |log(xy) - log(x) - log(y)| at most (48 + 10 ln(xy))u for x, y >= 1; |asin(x) + acos(x) - pi/2| at most 95u + 8e-17 + 2u |x|^3/sqrt(1-x^2); |pow(x, 0.5) - sqrt(x)| at most 180 u sqrt(x) on [1/2, 4]; |cosh^2 - sinh^2 - 1| at most (430u + (|x|+7)/2^59) cosh^2(x). None of these is exact: tgamma(4.0f) is below 6, so converting it to int gives 5, tgamma(3.0) is below 2, exp(1.0)^2 is below exp(2.0), cosh^2(1.0) - sinh^2(1.0) exceeds 1.", "quantifier": "all representable arguments in the stated ranges, all three types", "why_tests_cant": "The two sides go through different algorithms; a test compares them at single points only.", "anchors": ["include/gcem_incl/tgamma.hpp:internal::tgamma_check", "include/gcem_incl/round.hpp:internal::round_check", "include/gcem_incl/exp.hpp:internal::exp_check", "include/gcem_incl/log.hpp:internal::log_check", "include/gcem_incl/asin.hpp:internal::asin_compute", "include/gcem_incl/acos.hpp:internal::acos_compute", "include/gcem_incl/pow.hpp:internal::pow_dbl", "include/gcem_incl/sqrt.hpp:internal::sqrt_check", "include/gcem_incl/cosh.hpp:internal::cosh_compute", "include/gcem_incl/sinh.hpp:internal::sinh_check"]}
{"id": "C96", "title": "Results on the right side of 0 and 1", "statement": "sqrt(x) >= 1 for every x >= 1 (infinity included); hypot(x, y) >= |x| for every finite y and every x with |x| at least the least normal number; wherever exp is defined, exp(x) >= 1 for x >= 0 and 0 <= exp(x) <= 1 for x <= 0, and therefore expm1(x) >= 0 for finite x >= 0, -1 <= expm1(x) <= 0 for finite x <= 0 and sinh(x) >= 0 for x >= 0; for x >= 1/2, log(x) is positive exactly if x > 1, zero exactly if x == 1 and negative exactly if x < 1, and log(x) < 0 for every normal x < 1/2 outside a 1e-5 neighbourhood of 0.1; cosh(x) >= 1 for |x| >= 1/100 where exp(|x|) and exp(-|x|) are finite and normal; for |x| <= 2^31, erf(x) lies between 0 and 1 for x >= 0 and between -1 and 0 for x <= 0, where in float 1.98 < |x| <= 2.100001 is left open. Two neighbours of these facts fail: hypot(x, y) >= |y| (hypot(1.0f, 4002.0f) is below 4002, hypot(1.0, 100007919.0) below 100007919, and hypot(x, 0) is 0 for subnormal x), and incomplete_gamma(a, z) <= 1 (in float, incomplete_gamma(0.25f, 7.0f) is 1.00001 and incomplete_gamma(1.25f, 11.0f) is 1.00016).", "quantifier": "all representable arguments in the stated ranges, all three types", "why_tests_cant": "These bounds hold exactly and without tolerance, also for arguments next to 0 and 1 and for all 2^64 doubles; callers rely on them when they take sqrt(exp(x)-1), log(cosh(x)) or 1-erf(x). Tests compare single values with a tolerance, which cannot see a result on the wrong side.", "anchors": ["include/gcem_incl/sqrt.hpp:internal::sqrt_check", "include/gcem_incl/hypot.hpp:internal::hypot_compute", "include/gcem_incl/exp.hpp:internal::exp_cf", "include/gcem_incl/exp.hpp:internal::exp_split", "include/gcem_incl/expm1.hpp:internal::expm1_check", "include/gcem_incl/sinh.hpp:internal::sinh_check", "include/gcem_incl/cosh.hpp:internal::cosh_compute", "include/gcem_incl/log.hpp:internal::log_check", "include/gcem_incl/erf.hpp:internal::erf_begin", "include/gcem_incl/incomplete_gamma.hpp:internal::incomplete_gamma_check"]}
{"id": "C97", "title": "Scaling and reflecting the arguments of hypot, atan2 and fmod", "statement": "Let s be a power of two, s >= 1, and s*x and s*y representable. hypot(s*x, s*y) is s*hypot(x, y) bit for bit for all normal x and y (overflowing to infinity exactly if the product does). atan2(s*y, s*x) and atan2(y, x) are identical for every normal x and every finite y. fmod(s*x, s*y) is s*fmod(x, y) bit for bit for normal y with |y| <= |x|, |x|*s and |x/y| less than half the overflow threshold. For all x and y including infinities and NaN, fmod(-x, y) is -fmod(x, y) and fmod(x, -y) is fmod(x, y), in value (the sign of a zero aside) and in which calls are undefined. In the range just given fmod(x, y) is finite, |fmod(x, y)| <= |x|, and it differs by at most 3u|x| from x - n*y for an integer n that differs from x/y by at most 1 + u|x/y|, u = 2^-prec. With a factor 3 in place of a power of two this fails: hypot(9.0, 15.0) and 3*hypot(3.0, 5.0) differ in the last bit.", "quantifier": "all representable x, y in the stated ranges and all powers of two, all three types", "why_tests_cant": "A relation between two calls that has to hold bit for bit for all pairs of arguments and all scale factors; the tests compare single calls with reference values and a tolerance.", "anchors": ["include/gcem_incl/hypot.hpp:internal::hypot_compute", "include/gcem_incl/hypot.hpp:internal::hypot_vals_check", "include/gcem_incl/atan2.hpp:internal::atan2_compute", "include/gcem_incl/fmod.hpp:internal::fmod_check", "include/gcem_incl/trunc.hpp:internal::trunc_check"]}
{"id": "C98", "title": "Whole numbers recovered from computed results", "statement": "What rounding or truncating a result gives where the exact result is a whole number or must be compared with one. floor(sqrt(m)) is the integer square root of every whole m >= 1 up to 2^18, 2^45, 2^53 (float, double, long double) that is at most 100 or not a square; at larger squares it can be one too small: floor(sqrt(169.0)) is 12, floor(sqrt(256.0f)) and floor(sqrt(256.0L)) are 15. floor(sqrt(m + 0.5)) is the integer square root of every whole m up to 2^17, 2^44, 2^52, and round(sqrt(n*n)) is n whenever n*n <= 2^prec. floor(log10(n)) + 1 is the number of decimal digits of every whole n >= 1 below 2^16, 2^44, 10^15; floor(log10(1e15L)) is 14. floor(log2(n)) + 1 is the number of binary digits of every n up to 2^16, 2^44, 2^55 that is not a power of two, but floor(log2(8.0)) is 2 and floor(log2(32768.0f)) is 14; round(log2(2^k)) is k for every finite power of two, k >= 1. round(pow(b, n)) with floating b >= 1 and n holding whole numbers is b^n up to 2^13, 2^40, 2^51, while floor(pow(2.0, 2.0)) is 3, floor(pow(7.0f, 2.0f)) 48 and floor(pow(3.0L, 3.0L)) 26. round(exp(log_binomial_coef(n, k))) is the binomial coefficient for n <= 20, 1000, 1000 and values up to 1000, 2^32, 2^42.", "quantifier": "all whole numbers up to the stated bounds, all three types", "why_tests_cant": "Truncation turns an error of one unit in the last place into an error of 1, so a tolerance test says nothing about it; the ranges contain up to 2^55 arguments.", "anchors": ["include/gcem_incl/sqrt.hpp:internal::sqrt_check", "include/gcem_incl/log10.hpp:internal::log10_check", "include/gcem_incl/log2.hpp:internal::log2_check", "include/gcem_incl/pow.hpp:internal::pow_dbl", "include/gcem_incl/log_binomial_coef.hpp:internal::log_binomial_coef_compute", "include/gcem_incl/exp.hpp:internal::exp_check", "include/gcem_incl/floor.hpp:internal::floor_check", "include/gcem_incl/round.hpp:internal::round_check"]}
{"id": "C99", "title": "Poisson, binomial and normal probabilities", "statement": "The incomplete gamma and beta functions are what statistics code calls for distribution functions. For a whole number 1 <= n < 10 and 1/2 <= z <= n + 10 - 2^-20, incomplete_gamma(n, z) is P, the probability that a Poisson variable with mean z is at least n, with relative error at most (330 + 70 n ln(n+z+6) + 10 z + 410 K)u + 2.4e-14 where K = (n!/z^n)(e^z - sum_{k<n} z^k/k!). For whole n and z >= n + 10 (z >= 3.01 n if n >= 10, and z at most 85, 706, 11353 in float, double, long double) the error is at most (2 + (260 + 45 n ln(z+6) + 8 z) Q)u + 1.9e-14 Q with Q = 1 - P. incomplete_beta(k, n+1-k, p) is the probability of at least k successes in n trials of probability p, with absolute error at most 17000u + 3e-13, for 1 <= k <= n, k and n+1-k at most 10, 1/500 <= p <= 499/500, p and 1-p not within 1e-5 of 0.1 or 1e-6 of 0.01. incomplete_gamma(0.5, z) is erf(sqrt(z)), the probability that the square of a normal variable of variance 1/2 is at most z, with absolute error at most (580 + 205 sqrt(pi/z) e^z)u + 2.4e-14 for 1/2 <= z <= 10.", "quantifier": "all whole parameters and all representable z and p in the stated ranges, all three types", "why_tests_cant": "Links the results to finite sums and to the error function, for all arguments in a range; the tests compare single values with tabulated ones.", "anchors": ["include/gcem_incl/incomplete_gamma.hpp:internal::incomplete_gamma_check", "include/gcem_incl/incomplete_gamma.hpp:internal::incomplete_gamma_begin", "include/gcem_incl/incomplete_beta.hpp:internal::incomplete_beta_check", "include/gcem_incl/incomplete_beta.hpp:internal::incomplete_beta_begin"]}
{"id": "C100", "title": "Accuracy of incomplete_gamma near zero", "statement": "For 1/2 <= a < 10 and 2^-100 <= z < 1/2, z not within a relative 1e-4 of a power of ten, and z^a >= e^-42, incomplete_gamma(a, z) is within a relative error of (940 + 52 a + 17 a |ln z| + 38 a ln(a+6))u + 2.4e-14 of the regularised lower incomplete gamma function, u = 2^-prec. In particular, for a whole number 1 <= n < 10 and 1/500 <= z < 1/2 with z^n >= 1e-18 (z not within 1e-5 of 0.1 or 1e-6 of 0.01), incomplete_gamma(n, z) is the probability that a Poisson variable with mean z is at least n, within the relative error (940 + 160 n + 17 n |ln z|)u + 2.4e-14; the error stays relative although the probability goes down to 1e-23.", "quantifier": "all representable a and z in the stated range, all three types", "why_tests_cant": "The range is where upper tail probabilities of rare events are computed; relative accuracy for all arguments is a bound on the propagated error of a 54-level continued fraction, log, lgamma and exp, which no finite number of comparisons gives.", "anchors": ["include/gcem_incl/incomplete_gamma.hpp:internal::incomplete_gamma_cf_1", "include/gcem_incl/incomplete_gamma.hpp:internal::incomplete_gamma_cf_1_recur", "include/gcem_incl/incomplete_gamma.hpp:internal::incomplete_gamma_check", "include/gcem_incl/log.hpp:internal::log_breakup"]}
{"id": "C101", "title": "Logarithms and powers at 0.1, 0.01, 0.001, ...", "statement": "At a negative power of ten as written in a program (the representable number next to 10^-k) log may be wrong by ln 10, because mantissa and exponent are split off by different multiplications. In float, for k = 1 to 37, log(x) is within (26 + 11 k)u of ln(10^-k) for k = 1, 3, 5, 9, 13, 17, 18, 21, 22 and within the same distance of ln(10^(1-k)) for all other k. In double, for k = 1 to 30, it is right except for k = 11, 12, 13, 14, where it is close to ln(10^(1-k)), and k = 21, 29, where it is close to ln(10^(-k-1)). In long double, for k = 1 to 15, it is close to ln(10^(-k-1)) for k = 1, 5, 7, 9, 11, 13, 14, 15, close to ln(0.1) for k = 2, and right for the others. So log10(0.01f) == -1 and log10(0.1L) == -2 exactly, pow(0.01f, 1.0f) is above 0.0999, pow(0.1L, 1.0L) is below 0.01001, and incomplete_beta(1.0f, 1.0f, 0.01f) and incomplete_gamma(1.0f, 0.01f) are above 0.099, ten times the exact value.", "quantifier": "all negative powers of ten in the normal range of float, those down to 1e-30 in double and 1e-15 in long double", "why_tests_cant": "The tests evaluate log and log10 in long double only, with 1e-500L as the only power of ten; which powers are affected depends on the rounding of every single multiplication. Next to these points, C37 gives the error bound.", "anchors": ["include/gcem_incl/log.hpp:internal::log_breakup", "include/gcem_incl/mantissa.hpp:internal::mantissa", "include/gcem_incl/find_exponent.hpp:internal::find_exponent", "include/gcem_incl/log10.hpp:internal::log10_check", "include/gcem_incl/pow.hpp:internal::pow_dbl", "include/gcem_incl/incomplete_gamma.hpp:internal::incomplete_gamma_cf_1", "include/gcem_incl/incomplete_beta.hpp:internal::incomplete_beta_begin"]}
{"id": "C102", "title": "Quantiles of the gamma distribution that are not numbers", "statement": "incomplete_gamma_inv(a, p) solves for the quantile by Halley steps that are divided by the derivative at the previous iterate and are not confined to positive values. Whatever a, p and the derivative are, once an iterate is below zero and at least two further steps are due, the call returns NaN or has undefined behaviour; it never recovers. This happens for ordinary arguments: in double, for shape 2 and every representable p from 3e-7 to 1e-6, whose quantiles lie between 0.0007 and 0.0015, the call never returns a number (NaN or undefined); incomplete_gamma_inv(2, 0.000001) and incomplete_gamma_inv(5, 0.000001) are NaN, although the quantiles are 0.0014 and 0.169, and incomplete_gamma_inv(2, 0.99999999), whose value is 21.4, has undefined behaviour (conversion out of range), so that it does not compile as a constant expression.", "quantifier": "all parameters, probabilities, iterates and derivatives of all three types for the first statement; all double probabilities of the range for the second", "why_tests_cant": "The tests call incomplete_gamma_inv at a few points for which the iteration converges; that a negative iterate is never recovered from is a statement about all states of the iteration.", "anchors": ["include/gcem_incl/incomplete_gamma_inv.hpp:internal::incomplete_gamma_inv_recur", "include/gcem_incl/incomplete_gamma_inv.hpp:internal::incomplete_gamma_inv_decision", "include/gcem_incl/incomplete_gamma_inv.hpp:internal::incomplete_gamma_inv_deriv_1", "include/gcem_incl/incomplete_gamma_inv.hpp:internal::incomplete_gamma_inv_initial_val_1_int_end"]}
