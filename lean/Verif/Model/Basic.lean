import Verif.Fp.Format

/-!
# Classification, sign, min/max, floor/ceil/trunc/round, fmod

Function by function transcription of the small headers.  `f` is the floating type `T`.
`FV.i n` is `T(n)`, `FV.d q` is `T(q)` for a `double` literal `q`, `FV.L q` for a `long double` literal.
-/

namespace Gcem
open FV
variable {f : Fmt}

/-! ## abs.hpp, sgn.hpp, signbit.hpp, copysign.hpp, neg_zero.hpp -/

/-- abs.hpp:31-43 -/
def fabs (x : FV f) : FV f :=
  if x == i 0 then i 0 else if x < i 0 then -x else x

/-- sgn.hpp:31-43 -/
def sgn (x : FV f) : ℤ :=
  if i 0 < x then 1 else if x < i 0 then -1 else 0

/-- signbit.hpp:31-42 (non-MSVC branch: `__builtin_signbit`) -/
def signbit (x : FV f) : Bool := x.sign

/-- copysign.hpp:32-39 -/
def copysign {g : Fmt} (x : FV f) (y : FV g) : FV f :=
  if signbit x != signbit y then -x else x

/-- neg_zero.hpp:28-35 -/
def neg_zero (x : FV f) : Bool :=
  (x == i 0) && (copysign (i 1 : FV f) x == i (-1))

/-! ## is_nan.hpp, is_inf.hpp, is_finite.hpp -/

/-- is_nan.hpp:33-40: `x != x` -/
def is_nan (x : FV f) : Bool := !(x == x)
/-- is_nan.hpp:42-49 -/
def any_nan (x y : FV f) : Bool := is_nan x || is_nan y
/-- is_nan.hpp:60-67 -/
def any_nan3 (x y z : FV f) : Bool := is_nan x || is_nan y || is_nan z
/-- is_inf.hpp:31-38 -/
def is_neginf (x : FV f) : Bool := x == -limInf
/-- is_inf.hpp:78-85 -/
def is_posinf (x : FV f) : Bool := x == limInf
/-- is_inf.hpp:125-132 -/
def is_inf (x : FV f) : Bool := is_neginf x || is_posinf x
/-- is_inf.hpp:134-141 -/
def any_inf (x y : FV f) : Bool := is_inf x || is_inf y
/-- is_finite.hpp:31-38 -/
def is_finite (x : FV f) : Bool := !is_nan x && !is_inf x
/-- is_finite.hpp:49-56 -/
def all_finite (x y : FV f) : Bool := is_finite x && is_finite y

/-! ## max.hpp, min.hpp -/

/-- max.hpp:32-39 for two arguments of one floating type -/
def fmax (x y : FV f) : FV f := if y < x then x else y
/-- min.hpp:32-39 for two arguments of one floating type -/
def fmin (x y : FV f) : FV f := if y > x then x else y

/-! ## floor.hpp -/

/-- `static_cast<T>` of a C++ `bool`/0-1 `int` -/
def ofBool (b : Bool) : FV f := if b then i 1 else i 0

/-- floor.hpp:27-34 -/
def floor_resid (x x_whole : FV f) : Bool := decide (x < i 0) && decide (x < x_whole)

/-- floor.hpp:36-43 -/
def floor_int (x x_whole : FV f) : FV f := x_whole - ofBool (floor_resid x x_whole)

/-- The threshold literal in `floor/ceil/trunc/round_check_internal`: `8388608.f`,
`4503599627370496.`, `9223372036854775808.l`. -/
def bigLit (f : Fmt) : FV f :=
  match f.ty with
  | .float => i 8388608
  | .double => i 4503599627370496
  | .ldouble => i 9223372036854775808

/-- floor.hpp:54-91 (the three specializations of `floor_check_internal`) -/
def floor_check_internal (x : FV f) : Res (FV f) :=
  if bigLit f ≤ fabs x then .ok x
  else match f.ty with
    | .float => do
        let n ← toI32 x
        .ok (floor_int x (i n))
    | .double => do
        let n ← toI64 x
        .ok (floor_int x (i n))
    | .ldouble => do
        let n ← toU64 (fabs x)
        .ok (floor_int x (i n * i (sgn x)))

/-- floor.hpp:93-110 -/
def floor_check (x : FV f) : Res (FV f) :=
  if is_nan x then .ok limNaN
  else if !is_finite x then .ok x
  else if limMin > fabs x then .ok x
  else floor_check_internal x

/-- floor.hpp:121-128 (floating argument) -/
def floor (x : FV f) : Res (FV f) := floor_check x

/-! ## ceil.hpp -/

/-- ceil.hpp:27-34 -/
def ceil_resid (x x_whole : FV f) : Bool := decide (x > i 0) && decide (x > x_whole)

/-- ceil.hpp:36-43 -/
def ceil_int (x x_whole : FV f) : FV f := x_whole + ofBool (ceil_resid x x_whole)

/-- ceil.hpp:54-91 -/
def ceil_check_internal (x : FV f) : Res (FV f) :=
  if bigLit f ≤ fabs x then .ok x
  else match f.ty with
    | .float => do
        let n ← toI32 x
        .ok (ceil_int x (i n))
    | .double => do
        let n ← toI64 x
        .ok (ceil_int x (i n))
    | .ldouble => do
        let n ← toU64 (fabs x)
        .ok (ceil_int x (i n * i (sgn x)))

/-- ceil.hpp:93-110 -/
def ceil_check (x : FV f) : Res (FV f) :=
  if is_nan x then .ok limNaN
  else if !is_finite x then .ok x
  else if limMin > fabs x then .ok x
  else ceil_check_internal x

/-- ceil.hpp:121-128 -/
def ceil (x : FV f) : Res (FV f) := ceil_check x

/-! ## trunc.hpp -/

/-- trunc.hpp:27-34 -/
def trunc_int (x : FV f) : Res (FV f) := do
  let n ← toI64 x
  .ok (i n)

/-- trunc.hpp:45-82 -/
def trunc_check_internal (x : FV f) : Res (FV f) :=
  if bigLit f ≤ fabs x then .ok x
  else match f.ty with
    | .float => trunc_int x
    | .double => trunc_int x
    | .ldouble => do
        let n ← toU64 (fabs x)
        .ok (i n * i (sgn x))

/-- trunc.hpp:84-101 -/
def trunc_check (x : FV f) : Res (FV f) :=
  if is_nan x then .ok limNaN
  else if !is_finite x then .ok x
  else if limMin > fabs x then .ok x
  else trunc_check_internal x

/-- trunc.hpp:112-119 -/
def trunc (x : FV f) : Res (FV f) := trunc_check x

/-! ## round.hpp -/

/-- round.hpp:27-38 -/
def round_int (x : FV f) : Res (FV f) := do
  let fl ← floor_check x
  if d (1/2) ≤ fabs (x - fl) then .ok (fl + i (sgn x)) else .ok fl

/-- round.hpp:49-86 (identical text for the three types up to the threshold) -/
def round_check_internal (x : FV f) : Res (FV f) :=
  if bigLit f ≤ fabs x then .ok x else round_int x

/-- round.hpp:88-105 -/
def round_check (x : FV f) : Res (FV f) :=
  if is_nan x then .ok limNaN
  else if !is_finite x then .ok x
  else if limMin > fabs x then .ok x
  else do
    let r ← round_check_internal (fabs x)
    .ok (i (sgn x) * r)

/-- round.hpp:116-123 -/
def round (x : FV f) : Res (FV f) := round_check x

/-! ## Integral arguments: `return_t<T>` is `double` (gcem_options.hpp:76-77) -/

/-- `static_cast<return_t<T>>(n)` for an integer `n` -/
def ofIntegral (n : ℤ) : FV binary64 := i n

/-- floor.hpp:121-128 with an integral argument -/
def floorI (n : ℤ) : Res (FV binary64) := floor_check (ofIntegral n)
/-- ceil.hpp:121-128 with an integral argument -/
def ceilI (n : ℤ) : Res (FV binary64) := ceil_check (ofIntegral n)
/-- trunc.hpp:112-119 with an integral argument -/
def truncI (n : ℤ) : Res (FV binary64) := trunc_check (ofIntegral n)
/-- round.hpp:116-123 with an integral argument -/
def roundI (n : ℤ) : Res (FV binary64) := round_check (ofIntegral n)

/-! ## fmod.hpp -/

/-- fmod.hpp:27-41 -/
def fmod_check (x y : FV f) : Res (FV f) :=
  if any_nan x y then .ok limNaN
  else if !all_finite x y then .ok limNaN
  else do
    let t ← trunc (x / y)
    .ok (x - t * y)

/-- fmod.hpp:61-68, two arguments of one floating type -/
def fmod (x y : FV f) : Res (FV f) := fmod_check x y

/-! ## find_whole.hpp, find_fraction.hpp -/

/-- find_whole.hpp:31-42 -/
def find_whole (x : FV f) : Res ℤ := do
  let fl ← floor_check x
  if d (1/2) ≤ fabs (x - fl) then toI64 (fl + i (sgn x)) else toI64 fl

/-- find_fraction.hpp:31-42 -/
def find_fraction (x : FV f) : Res (FV f) := do
  let fl ← floor_check x
  if d (1/2) ≤ fabs (x - fl) then .ok (x - fl - i (sgn x)) else .ok (x - fl)

end Gcem
