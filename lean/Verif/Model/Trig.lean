import Verif.Model.Elem

/-!
# Trigonometric and hyperbolic functions
-/

namespace Gcem
open FV
variable {f : Fmt}

/-! ## tan.hpp -/

/-- tan.hpp:34-38 -/
def tan_series_exp_long (z : FV f) : FV f :=
  i (-1) / z + (z / i 3 + (pow_integral_int z 3 / i 45
    + (i 2 * pow_integral_int z 5 / i 945 + pow_integral_int z 7 / i 4725)))

/-- tan.hpp:43-54 -/
def tan_series_exp (x : FV f) : FV f :=
  if limMin > fabs (x - L HALF_PI) then d 1.633124e16
  else tan_series_exp_long (x - L HALF_PI)

/-- tan.hpp:59-67 -/
def tan_cf_recur (xx : FV f) (depth max_depth : ℕ) : FV f :=
  if depth < max_depth then i (2 * depth - 1) - xx / tan_cf_recur xx (depth + 1) max_depth
  else i (2 * depth - 1)
termination_by max_depth - depth

/-- tan.hpp:72-84 -/
def tan_cf_main (x : FV f) : FV f :=
  if x > d 1.55 ∧ x < d 1.60 then tan_series_exp x
  else if x > d 1.4 then x / tan_cf_recur (x * x) 1 45
  else if x > i 1 then x / tan_cf_recur (x * x) 1 35
  else x / tan_cf_recur (x * x) 1 25

/-- tan.hpp:89-98; `left = 2 - count`, so `count > 1` is `left = 0` -/
def tan_begin : (left : ℕ) → (x : FV f) → Res (FV f)
  | left, x =>
    if x > L PI then
      match left with
      | 0 => .ok limNaN
      | left' + 1 => do
        let fl ← floor_check (x / L PI)
        tan_begin left' (x - L PI * fl)
    else .ok (tan_cf_main x)

/-- tan.hpp:103-116 -/
def tan_check (x : FV f) : Res (FV f) :=
  if is_nan x then .ok limNaN
  else if limMin > fabs x then .ok (i 0)
  else if x < i 0 then do
    let r ← tan_begin 2 (-x)
    .ok (-r)
  else tan_begin 2 x

/-- tan.hpp:134-138 -/
def tan (x : FV f) : Res (FV f) := tan_check x

/-! ## sin.hpp, cos.hpp -/

/-- sin.hpp:36-40 -/
def sin_compute (x : FV f) : FV f := i 2 * x / (i 1 + x * x)

/-- sin.hpp:45-65 -/
def sin_check (x : FV f) : Res (FV f) :=
  if is_nan x then .ok limNaN
  else if limMin > fabs x then .ok (i 0)
  else if limMin > fabs (x - L HALF_PI) then .ok (i 1)
  else if limMin > fabs (x + L HALF_PI) then .ok (-i 1)
  else if limMin > fabs (x - L PI) then .ok (i 0)
  else if limMin > fabs (x + L PI) then .ok (-i 0)
  else do
    let t ← tan (x / i 2)
    .ok (sin_compute t)

/-- sin.hpp:79-83 -/
def sin (x : FV f) : Res (FV f) := sin_check x

/-- cos.hpp:34-38 -/
def cos_compute (x : FV f) : FV f := (i 1 - x * x) / (i 1 + x * x)

/-- cos.hpp:43-63 -/
def cos_check (x : FV f) : Res (FV f) :=
  if is_nan x then .ok limNaN
  else if limMin > fabs x then .ok (i 1)
  else if limMin > fabs (x - L HALF_PI) then .ok (i 0)
  else if limMin > fabs (x + L HALF_PI) then .ok (i 0)
  else if limMin > fabs (x - L PI) then .ok (-i 1)
  else if limMin > fabs (x + L PI) then .ok (-i 1)
  else do
    let t ← tan (x / i 2)
    .ok (cos_compute t)

/-- cos.hpp:77-81 -/
def cos (x : FV f) : Res (FV f) := cos_check x

/-! ## atan.hpp -/

/-- atan.hpp:40-45 -/
def atan_series_order_calc (xx x_pow : FV f) (order : ℕ) : FV f :=
  i 1 / (i ((order - 1) * 4 - 1) * x_pow) - i 1 / (i ((order - 1) * 4 + 1) * x_pow * xx)

/-- the `long double` expression `GCEM_HALF_PI - T(1)/x` of atan.hpp:58,72,86,88 -/
def half_pi_minus_inv (x : FV f) : FV f.ldbl := L HALF_PI - cast f.ldbl (i 1 / x)

/-- atan.hpp:52-75 (C++14).  `res += <long double>` adds in `long double` and converts back. -/
def atan_series_order (x x_pow : FV f) (order_begin max_order : ℕ) : FV f :=
  if max_order = 1 then cast f (half_pi_minus_inv x_pow)
  else
    let xx := x * x
    let res := atan_series_order_calc xx (pow_integral_uint x (4 * max_order - 5)) max_order
    let res := whileDown
      (fun depth res => res + atan_series_order_calc xx (pow_integral_uint x (4 * depth - 5)) depth)
      order_begin (max_order - 1) res
    cast f (cast f.ldbl res + half_pi_minus_inv x)

/-- atan.hpp:82-95 (C++11) -/
def atan_series_order_cpp11 (x x_pow : FV f) (order max_order : ℕ) : FV f :=
  if max_order = 1 then cast f (half_pi_minus_inv x)
  else if order = 1 then
    cast f (half_pi_minus_inv x + cast f.ldbl
      (atan_series_order_cpp11 (x * x) (pow_integral_int x 3) (order + 1) max_order))
  else if order < max_order then
    atan_series_order_calc x x_pow order
      + atan_series_order_cpp11 x (x_pow * x * x) (order + 1) max_order
  else atan_series_order_calc x x_pow order
termination_by max_order + 2 - order
decreasing_by all_goals omega

/-- the order table of atan.hpp:105-113 -/
def atan_series_orders (x : FV f) : ℕ :=
  if x < i 3 then 10
  else if x < i 4 then 9
  else if x < i 5 then 8
  else if x < i 7 then 7
  else if x < i 11 then 6
  else if x < i 25 then 5
  else if x < i 100 then 4
  else if x < i 1000 then 3
  else 2

/-- atan.hpp:102-114 -/
def atan_series_main (x : FV f) : FV f := atan_series_order x x 1 (atan_series_orders x)

/-- loop body of atan.hpp:130, right-hand side of atan.hpp:148 -/
def atan_cf_step (xx : FV f) (depth : ℕ) (res : FV f) : FV f :=
  i (2 * depth - 1) + i (depth * depth) * xx / res

/-- atan.hpp:123-136 (C++14) -/
def atan_cf_recur (xx : FV f) (depth_begin max_depth : ℕ) : FV f :=
  whileDown (atan_cf_step xx) (depth_begin - 1) (max_depth - 1) (i (2 * max_depth - 1))

/-- atan.hpp:143-151 (C++11) -/
def atan_cf_recur_cpp11 (xx : FV f) (depth max_depth : ℕ) : FV f :=
  if depth < max_depth then
    i (2 * depth - 1) + i (depth * depth) * xx / atan_cf_recur_cpp11 xx (depth + 1) max_depth
  else i (2 * depth - 1)
termination_by max_depth - depth

/-- the depth table of atan.hpp:161-165 -/
def atan_cf_depth (x : FV f) : ℕ :=
  if x < d 0.5 then 15
  else if x < i 1 then 25
  else if x < d 1.5 then 35
  else if x < i 2 then 45
  else 52

/-- atan.hpp:158-166 -/
def atan_cf_main (x : FV f) : FV f := x / atan_cf_recur (x * x) 1 (atan_cf_depth x)

/-- atan.hpp:173-177 -/
def atan_begin (x : FV f) : FV f := if x > d 2.5 then atan_series_main x else atan_cf_main x

/-- atan.hpp:184-197 -/
def atan_check (x : FV f) : FV f :=
  if is_nan x then limNaN
  else if limMin > fabs x then i 0
  else if x < i 0 then -atan_begin (-x)
  else atan_begin x

/-- atan.hpp:211-215 -/
def atan (x : FV f) : FV f := atan_check x

/-! ## atan2.hpp -/

/-- atan2.hpp:34-56 -/
def atan2_compute (y x : FV f) : FV f :=
  if any_nan y x then limNaN
  else if limMin > fabs x then
    if limMin > fabs y then
      if neg_zero y then (if neg_zero x then -L PI else -i 0)
      else (if neg_zero x then L PI else i 0)
    else if y > i 0 then L HALF_PI else -L HALF_PI
  else if x < i 0 then
    if y < i 0 then atan (y / x) - L PI else atan (y / x) + L PI
  else atan (y / x)

/-- atan2.hpp:61-65: the arguments are swapped here … -/
def atan2_type_check (y x : FV f) : FV f := atan2_compute x y
/-- atan2.hpp:82-86: … and swapped back here -/
def atan2 (y x : FV f) : FV f := atan2_type_check x y

/-! ## asin.hpp, acos.hpp -/

/-- asin.hpp:34-47 -/
def asin_compute (x : FV f) : Res (FV f) :=
  if x > i 1 then .ok limNaN
  else if limMin > fabs (x - i 1) then .ok (L HALF_PI)
  else if limMin > fabs x then .ok (i 0)
  else do
    let s ← sqrt (i 1 - x * x)
    .ok (atan (x / s))

/-- asin.hpp:52-62 -/
def asin_check (x : FV f) : Res (FV f) :=
  if is_nan x then .ok limNaN
  else if x < i 0 then do
    let r ← asin_compute (-x)
    .ok (-r)
  else asin_compute x

/-- asin.hpp:76-80 -/
def asin (x : FV f) : Res (FV f) := asin_check x

/-- acos.hpp:34-47 -/
def acos_compute (x : FV f) : Res (FV f) :=
  if fabs x > i 1 then .ok limNaN
  else if limMin > fabs (x - i 1) then .ok (i 0)
  else if limMin > fabs x then .ok (L HALF_PI)
  else do
    let s ← sqrt (i 1 - x * x)
    .ok (atan (s / x))

/-- acos.hpp:52-64 -/
def acos_check (x : FV f) : Res (FV f) :=
  if is_nan x then .ok limNaN
  else if x > i 0 then acos_compute x
  else do
    let r ← acos_compute (-x)
    .ok (L PI - r)

/-- acos.hpp:78-82 -/
def acos (x : FV f) : Res (FV f) := acos_check x

/-! ## sinh.hpp, cosh.hpp, tanh.hpp -/

/-- sinh.hpp:34-45 -/
def sinh_check (x : FV f) : Res (FV f) :=
  if is_nan x then .ok limNaN
  else if limMin > fabs x then .ok (i 0)
  else do
    let a ← exp x
    let b ← exp (-x)
    .ok ((a - b) / i 2)

/-- sinh.hpp:59-63 -/
def sinh (x : FV f) : Res (FV f) := sinh_check x

/-- cosh.hpp:34-45 -/
def cosh_compute (x : FV f) : Res (FV f) :=
  if is_nan x then .ok limNaN
  else if limMin > fabs x then .ok (i 1)
  else do
    let a ← exp x
    let b ← exp (-x)
    .ok ((a + b) / i 2)

/-- cosh.hpp:59-63 -/
def cosh (x : FV f) : Res (FV f) := cosh_compute x

/-- loop body of tanh.hpp:43, right-hand side of tanh.hpp:61 -/
def tanh_cf_step (xx : FV f) (depth : ℕ) (res : FV f) : FV f := i (2 * depth - 1) + xx / res

/-- tanh.hpp:36-49 (C++14) -/
def tanh_cf (xx : FV f) (depth_end : ℕ) : FV f :=
  whileDown (tanh_cf_step xx) (depth_end - 1) (TANH_MAX_ITER - 1) (i (2 * TANH_MAX_ITER - 1))

/-- tanh.hpp:56-64 (C++11) -/
def tanh_cf_cpp11 (xx : FV f) (depth : ℕ) : FV f :=
  if depth < TANH_MAX_ITER then i (2 * depth - 1) + xx / tanh_cf_cpp11 xx (depth + 1)
  else i (2 * depth - 1)
termination_by TANH_MAX_ITER - depth

/-- tanh.hpp:71-75 -/
def tanh_begin (x : FV f) : FV f := x / tanh_cf (x * x) 1

/-- tanh.hpp:80-93 -/
def tanh_check (x : FV f) : FV f :=
  if is_nan x then limNaN
  else if limMin > fabs x then i 0
  else if x < i 0 then -tanh_begin (-x)
  else tanh_begin x

/-- tanh.hpp:107-111 -/
def tanh (x : FV f) : FV f := tanh_check x

/-! ## asinh.hpp, acosh.hpp, atanh.hpp -/

/-- asinh.hpp:34-45 -/
def asinh_compute (x : FV f) : Res (FV f) :=
  if is_nan x then .ok limNaN
  else if limMin > fabs x then .ok (i 0)
  else do
    let s ← sqrt (x * x + i 1)
    log (x + s)

/-- asinh.hpp:59-63 -/
def asinh (x : FV f) : Res (FV f) := asinh_compute x

/-- acosh.hpp:34-48 -/
def acosh_compute (x : FV f) : Res (FV f) :=
  if is_nan x then .ok limNaN
  else if x < i 1 then .ok limNaN
  else if limMin > fabs (x - i 1) then .ok (i 0)
  else do
    let s ← sqrt (x * x - i 1)
    log (x + s)

/-- acosh.hpp:62-66 -/
def acosh (x : FV f) : Res (FV f) := acosh_compute x

/-- atanh.hpp:34-38 -/
def atanh_compute (x : FV f) : Res (FV f) := do
  let l ← log ((i 1 + x) / (i 1 - x))
  .ok (l / i 2)

/-- atanh.hpp:43-59 -/
def atanh_check (x : FV f) : Res (FV f) :=
  if is_nan x then .ok limNaN
  else if i 1 < fabs x then .ok limNaN
  else if limMin > i 1 - fabs x then .ok (i (sgn x) * limInf)
  else if limMin > fabs x then .ok (i 0)
  else atanh_compute x

/-- atanh.hpp:73-77 -/
def atanh (x : FV f) : Res (FV f) := atanh_check x

end Gcem
