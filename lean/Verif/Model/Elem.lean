import Verif.Model.Basic
import Verif.Model.Const

/-!
# Powers, square roots, exponential and logarithm

Model of pow_integral.hpp (floating base), sqrt.hpp, inv_sqrt.hpp, hypot.hpp, exp.hpp, expm1.hpp,
mantissa.hpp, find_exponent.hpp, log.hpp, log1p.hpp, log2.hpp, log10.hpp, pow.hpp.
Where the header has a C++11 and a C++14 implementation the C++14 one is the main definition and the
C++11 one has the suffix `_cpp11`.
-/

namespace Gcem
open FV
variable {f : Fmt}

/-! ## pow_integral.hpp, floating base -/

/-- pow_integral.hpp:40-48.  The exponent is a (machine) integer; only nonnegative exponents reach
this function, and `exp_term/2` cannot overflow, so it is modelled as `ℕ`. -/
def pow_integral_compute_recur (base val : FV f) (exp_term : ℕ) : FV f :=
  if exp_term > 1 then
    if exp_term % 2 = 1 then pow_integral_compute_recur (base * base) (val * base) (exp_term / 2)
    else pow_integral_compute_recur (base * base) val (exp_term / 2)
  else if exp_term = 1 then val * base else val
termination_by exp_term

/-- pow_integral.hpp:75-93 on exponents `exp_term ≥ 0`; `hi` is the maximum of the exponent type.
(For an unsigned exponent type the test `exp_term == min()` is `exp_term == 0`, already caught.) -/
def pow_integral_nonneg (base : FV f) (exp_term : ℕ) (hi : ℕ) : FV f :=
  if exp_term = 3 then base * base * base
  else if exp_term = 2 then base * base
  else if exp_term = 1 then base
  else if exp_term = 0 then i 1
  else if exp_term = hi then limInf
  else pow_integral_compute_recur base (i 1) exp_term

/-- pow_integral.hpp:75-93 with pow_integral.hpp:50-61, exponent type with range `[lo, hi]`
(`lo = -hi-1`, or `0` for unsigned).  `- exp_term` cannot overflow since `lo` is excluded. -/
def pow_integral_compute (lo : ℤ) (hi : ℕ) (base : FV f) (exp_term : ℤ) : FV f :=
  if exp_term < 0 then
    if exp_term = lo then i 0
    else i 1 / pow_integral_nonneg base (-exp_term).toNat hi
  else pow_integral_nonneg base exp_term.toNat hi

/-- pow_integral.hpp:120-124 with exponent type `int` -/
def pow_integral_int (base : FV f) (e : ℤ) : FV f := pow_integral_compute (-2 ^ 31) (2 ^ 31 - 1) base e
/-- pow_integral.hpp:120-124 with exponent type `unsigned` -/
def pow_integral_uint (base : FV f) (e : ℕ) : FV f := pow_integral_nonneg base e (2 ^ 32 - 1)
/-- pow_integral.hpp:120-124 with exponent type `long long` -/
def pow_integral_llint (base : FV f) (e : ℤ) : FV f := pow_integral_compute (-2 ^ 63) (2 ^ 63 - 1) base e

/-! ## sqrt.hpp -/

/-- sqrt.hpp:34-46; `left` counts the remaining iterations, `count = SQRT_MAX_ITER - left` -/
def sqrt_recur (x : FV f) : (left : ℕ) → (xn : FV f) → FV f
  | left, xn =>
    if fabs (xn - x / xn) / (i 1 + xn) < limMin then xn
    else match left with
      | left' + 1 => sqrt_recur x left' (d 0.5 * (xn + x / xn))
      | 0 => xn

/-- sqrt.hpp:51-65 -/
def sqrt_simplify : (fuel : ℕ) → (x m_val : FV f) → Res (FV f)
  | 0, _, _ => .error .noReturn
  | n + 1, x, m_val =>
    if x > d 1e8 then sqrt_simplify n (x / d 1e8) (d 1e4 * m_val)
    else if x > d 1e6 then sqrt_simplify n (x / d 1e6) (d 1e3 * m_val)
    else if x > d 1e4 then sqrt_simplify n (x / d 1e4) (d 1e2 * m_val)
    else if x > i 100 then sqrt_simplify n (x / i 100) (i 10 * m_val)
    else if x > i 4 then sqrt_simplify n (x / i 4) (i 2 * m_val)
    else .ok (m_val * sqrt_recur x SQRT_MAX_ITER (x / i 2))

/-- sqrt.hpp:70-88 -/
def sqrt_check (x : FV f) : Res (FV f) :=
  if is_nan x then .ok limNaN
  else if x < i 0 then .ok limNaN
  else if is_posinf x then .ok x
  else if limMin > fabs x then .ok (i 0)
  else if limMin > fabs (i 1 - x) then .ok x
  else sqrt_simplify recFuel x (i 1)

/-- sqrt.hpp:103-107 -/
def sqrt (x : FV f) : Res (FV f) := sqrt_check x

/-! ## inv_sqrt.hpp -/

/-- inv_sqrt.hpp:34-44 -/
def inv_sqrt_recur (x : FV f) : (left : ℕ) → (xn : FV f) → FV f
  | left, xn =>
    if fabs (xn - i 1 / (x * xn)) / (i 1 + xn) < limMin then xn
    else match left with
      | left' + 1 => inv_sqrt_recur x left' (d 0.5 * (xn + i 1 / (x * xn)))
      | 0 => xn

/-- inv_sqrt.hpp:49-67 -/
def inv_sqrt_check (x : FV f) : FV f :=
  if is_nan x then limNaN
  else if x < i 0 then limNaN
  else if is_posinf x then i 0
  else if limMin > fabs x then limInf
  else if limMin > fabs (i 1 - x) then x
  else inv_sqrt_recur x INV_SQRT_MAX_ITER (x / i 2)

/-- inv_sqrt.hpp:82-86 -/
def inv_sqrt (x : FV f) : FV f := inv_sqrt_check x

/-! ## hypot.hpp -/

/-- hypot.hpp:36-40 -/
def hypot_compute (x ydx : FV f) : Res (FV f) := do
  let s ← sqrt (i 1 + ydx * ydx)
  .ok (fabs x * s)

/-- hypot.hpp:45-60 -/
def hypot_vals_check (x y : FV f) : Res (FV f) :=
  if any_nan x y then .ok limNaN
  else if any_inf x y then .ok limInf
  else if limMin > fabs x then .ok (fabs y)
  else if limMin > fabs y then .ok (fabs x)
  else hypot_compute x (y / x)

/-- hypot.hpp:84-88, two arguments of one floating type -/
def hypot (x y : FV f) : Res (FV f) := hypot_vals_check x y

/-! ## exp.hpp -/

/-- loop body of exp.hpp:45, right-hand side of exp.hpp:63 -/
def exp_cf_step (x : FV f) (depth : ℕ) (res : FV f) : FV f :=
  i 1 + x / i (depth - 1) - x / i depth / res

/-- exp.hpp:38-51 (C++14) -/
def exp_cf_recur (x : FV f) (depth_end : ℕ) : FV f :=
  whileDown (exp_cf_step x) (depth_end - 1) (EXP_MAX_ITER_SMALL - 1) (i 1)

/-- exp.hpp:58-66 (C++11) -/
def exp_cf_recur_cpp11 (x : FV f) (depth : ℕ) : FV f :=
  if depth < EXP_MAX_ITER_SMALL then
    i 1 + x / i (depth - 1) - x / i depth / exp_cf_recur_cpp11 x (depth + 1)
  else i 1
termination_by EXP_MAX_ITER_SMALL - depth

/-- exp.hpp:73-77 -/
def exp_cf (x : FV f) : FV f := i 1 / (i 1 - x / exp_cf_recur x 2)

/-- exp.hpp:82-86; `GCEM_E` is a `long double`, so the power is computed in `long double` -/
def exp_split (x : FV f) : Res (FV f) := do
  let w ← find_whole x
  let fr ← find_fraction x
  .ok (cast f (pow_integral_llint (L GCEM_E : FV f.ldbl) w) * exp_cf fr)

/-- exp.hpp:91-109 -/
def exp_check (x : FV f) : Res (FV f) :=
  if is_nan x then .ok limNaN
  else if is_neginf x then .ok (i 0)
  else if limMin > fabs x then .ok (i 1)
  else if is_posinf x then .ok limInf
  else if fabs x < i 2 then .ok (exp_cf x)
  else exp_split x

/-- exp.hpp:124-128 -/
def exp (x : FV f) : Res (FV f) := exp_check x

/-! ## expm1.hpp -/

/-- expm1.hpp:34-39 -/
def expm1_compute (x : FV f) : FV f :=
  x + x * (x / i 2 + x * (x / i 6 + x * (x / i 24 + x * x / i 120)))

/-- expm1.hpp:44-56 -/
def expm1_check (x : FV f) : Res (FV f) :=
  if is_nan x then .ok limNaN
  else if fabs x > d 1e-4 then do
    let e ← exp x
    .ok (e - i 1)
  else .ok (expm1_compute x)

/-- expm1.hpp:70-74 -/
def expm1 (x : FV f) : Res (FV f) := expm1_check x

/-! ## mantissa.hpp, find_exponent.hpp -/

/-- mantissa.hpp:34-43 -/
def mantissa : (fuel : ℕ) → (x : FV f) → Res (FV f)
  | 0, _ => .error .noReturn
  | n + 1, x =>
    if x < i 1 then mantissa n (x * i 10)
    else if x > i 10 then mantissa n (x / i 10)
    else .ok x

/-- find_exponent.hpp:34-53 -/
def find_exponent : (fuel : ℕ) → (x : FV f) → (exponent : ℤ) → Res ℤ
  | 0, _, _ => .error .noReturn
  | n + 1, x, exponent =>
    if x < d 1e-3 then find_exponent n (x * d 1e4) (exponent - 4)
    else if x < d 1e-1 then find_exponent n (x * d 1e2) (exponent - 2)
    else if x < i 1 then find_exponent n (x * i 10) (exponent - 1)
    else if x > i 10 then find_exponent n (x / i 10) (exponent + 1)
    else if x > d 1e2 then find_exponent n (x / d 1e2) (exponent + 2)
    else if x > d 1e4 then find_exponent n (x / d 1e4) (exponent + 4)
    else .ok exponent

/-! ## log.hpp -/

/-- loop body of log.hpp:46, right-hand side of log.hpp:64 -/
def log_cf_step (xx : FV f) (depth : ℕ) (res : FV f) : FV f :=
  i (2 * depth - 1) - i (depth * depth) * xx / res

/-- log.hpp:39-52 (C++14) -/
def log_cf_main (xx : FV f) (depth_end : ℕ) : FV f :=
  whileDown (log_cf_step xx) (depth_end - 1) (LOG_MAX_ITER_SMALL - 1) (i (2 * LOG_MAX_ITER_SMALL - 1))

/-- log.hpp:59-67 (C++11) -/
def log_cf_main_cpp11 (xx : FV f) (depth : ℕ) : FV f :=
  if depth < LOG_MAX_ITER_SMALL then
    i (2 * depth - 1) - i (depth * depth) * xx / log_cf_main_cpp11 xx (depth + 1)
  else i (2 * depth - 1)
termination_by LOG_MAX_ITER_SMALL - depth

/-- log.hpp:74-78 -/
def log_cf_begin (x : FV f) : FV f := i 2 * x / log_cf_main (x * x) 1

/-- log.hpp:83-87 -/
def log_main (x : FV f) : FV f := log_cf_begin ((x - i 1) / (x + i 1))

/-- log.hpp:91-104: the `long double` literals -/
def log_mantissa_integer (x : ℤ) : ℚ :=
  if x = 2 then 0.6931471805599453094172321214581765680755
  else if x = 3 then 1.0986122886681096913952452369225257046475
  else if x = 4 then 1.3862943611198906188344642429163531361510
  else if x = 5 then 1.6094379124341003746007593332261876395256
  else if x = 6 then 1.7917594692280550008124773583807022727230
  else if x = 7 then 1.9459101490553133051053527434431797296371
  else if x = 8 then 2.0794415416798359282516963643745297042265
  else if x = 9 then 2.1972245773362193827904904738450514092950
  else if x = 10 then 2.3025850929940456840179914546843642076011
  else 0

/-- log.hpp:109-113 -/
def log_mantissa (x : FV f) : Res (FV f) := do
  let n ← toI32 x
  .ok (log_main (x / i n) + L (log_mantissa_integer n))

/-- log.hpp:118-122 -/
def log_breakup (x : FV f) : Res (FV f) := do
  let m ← mantissa recFuel x
  let lm ← log_mantissa m
  let e ← find_exponent recFuel x 0
  .ok (lm + L LOG_10 * i e)

/-- log.hpp:127-150 -/
def log_check (x : FV f) : Res (FV f) :=
  if is_nan x then .ok limNaN
  else if x < i 0 then .ok limNaN
  else if limMin > x then .ok (-limInf)
  else if limMin > fabs (x - i 1) then .ok (i 0)
  else if x == limInf then .ok limInf
  else if x < d 0.5 ∨ x > d 1.5 then log_breakup x
  else .ok (log_main x)

/-- log.hpp:155-165 and log.hpp:180-184, floating argument -/
def log (x : FV f) : Res (FV f) := log_check x

/-- log.hpp:155-165 and log.hpp:180-184, integral argument -/
def logI (x : ℤ) : Res (FV binary64) :=
  if x = 0 then .ok (-limInf)
  else if x > 1 then log_check (ofIntegral x)
  else .ok (i 0)

/-! ## log1p.hpp, log2.hpp, log10.hpp -/

/-- log1p.hpp:38-43 -/
def log1p_compute (x : FV f) : FV f :=
  x + x * ((-x) / i 2 + x * (x / i 3 + x * ((-x) / i 4 + x * x / i 5)))

/-- log1p.hpp:48-60 -/
def log1p_check (x : FV f) : Res (FV f) :=
  if is_nan x then .ok limNaN
  else if fabs x > d 1e-4 then log (i 1 + x)
  else .ok (log1p_compute x)

/-- log1p.hpp:74-78 -/
def log1p (x : FV f) : Res (FV f) := log1p_check x

/-- log2.hpp:34-39: the division by the `long double` constant is done in `long double` -/
def log2 (x : FV f) : Res (FV f) := do
  let l ← log x
  .ok (cast f (cast f.ldbl l / L LOG_2))

/-- log10.hpp:34-39 -/
def log10 (x : FV f) : Res (FV f) := do
  let l ← log x
  .ok (cast f (cast f.ldbl l / L LOG_10))

/-- log2.hpp:34-39, integral argument -/
def log2I (x : ℤ) : Res (FV binary64) := do
  let l ← logI x
  .ok (cast binary64 (cast x87 l / L LOG_2))

/-- log10.hpp:34-39, integral argument -/
def log10I (x : ℤ) : Res (FV binary64) := do
  let l ← logI x
  .ok (cast binary64 (cast x87 l / L LOG_10))

/-! ## pow.hpp, floating exponent -/

/-- pow.hpp:34-38 -/
def pow_dbl (base exp_term : FV f) : Res (FV f) := do
  let l ← log base
  exp (exp_term * l)

/-- pow.hpp:40-51, base and exponent of one floating type -/
def pow_check (base exp_term : FV f) : Res (FV f) :=
  if base < i 0 then .ok limNaN else pow_dbl base exp_term

/-- pow.hpp:76-80, base and exponent of one floating type -/
def pow (base exp_term : FV f) : Res (FV f) := pow_check base exp_term

end Gcem
