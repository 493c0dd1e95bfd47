import Mathlib.Data.Rat.Floor
import Mathlib.Algebra.Order.Field.Power

/-!
# Floating-point values and arithmetic of the C++ types `float`, `double`, `long double`

This file is the machine model underneath every header of gcem: the C++ floating-point types
with IEEE-754 binary formats (binary32, binary64 and the x87 80-bit format), round to nearest even,
gradual underflow, overflow to infinity.

A format also has an `exact` flag.  With `exact = true` the rounding function is the identity and
nothing overflows, so the *same* program text gets exact rational semantics.
-/

namespace Gcem

/-- Outcomes that the C++ standard leaves undefined (or that never return). -/
inductive UB
  /-- signed integer overflow -/
  | intOverflow
  /-- integer division or remainder by zero -/
  | divByZero
  /-- conversion of a floating value whose truncation is not representable in the integer type -/
  | castRange
  /-- recursion that does not end -/
  | noReturn
  deriving DecidableEq, Repr

/-- Result of a C++ expression: a value or undefined behaviour. -/
abbrev Res (α : Type) := Except UB α

instance {α : Type} [DecidableEq α] : DecidableEq (Res α) := fun a b =>
  match a, b with
  | .ok x, .ok y => if h : x = y then isTrue (by rw [h]) else isFalse (by simpa using h)
  | .error x, .error y => if h : x = y then isTrue (by rw [h]) else isFalse (by simpa using h)
  | .ok _, .error _ => isFalse (by simp)
  | .error _, .ok _ => isFalse (by simp)

/-- The three C++ floating-point types. -/
inductive FTy | float | double | ldouble
  deriving DecidableEq, Repr

/-- Number of significand bits (`GCLIM<T>::digits`). -/
def FTy.prec : FTy → ℕ | .float => 24 | .double => 53 | .ldouble => 64
/-- Exponent of the least positive subnormal `2^emin`. -/
def FTy.emin : FTy → ℤ | .float => -149 | .double => -1074 | .ldouble => -16445
/-- Overflow threshold `2^emax`. -/
def FTy.emax : FTy → ℤ | .float => 128 | .double => 1024 | .ldouble => 16384

/-- A floating type together with the rounding switch (`exact = true`: no rounding at all). -/
structure Fmt where
  ty : FTy
  exact : Bool
  deriving DecidableEq, Repr

abbrev binary32 : Fmt := ⟨.float, false⟩
abbrev binary64 : Fmt := ⟨.double, false⟩
abbrev x87 : Fmt := ⟨.ldouble, false⟩

abbrev Fmt.prec (f : Fmt) : ℕ := f.ty.prec
abbrev Fmt.emin (f : Fmt) : ℤ := f.ty.emin
abbrev Fmt.emax (f : Fmt) : ℤ := f.ty.emax
/-- `double` under the same rounding switch. -/
abbrev Fmt.dbl (f : Fmt) : Fmt := ⟨.double, f.exact⟩
/-- `long double` under the same rounding switch. -/
abbrev Fmt.ldbl (f : Fmt) : Fmt := ⟨.ldouble, f.exact⟩

/-- `2^e` as a rational, in a form that evaluates quickly. -/
def pow2 (e : ℤ) : ℚ := if 0 ≤ e then ((2 ^ e.toNat : ℕ) : ℚ) else 1 / ((2 ^ (-e).toNat : ℕ) : ℚ)

/-- `⌊log₂ |q|⌋` for `q ≠ 0`. -/
def ilog2 (q : ℚ) : ℤ :=
  let e : ℤ := (Nat.log2 q.num.natAbs : ℤ) - (Nat.log2 q.den : ℤ)
  if (if q < 0 then -q else q) < pow2 e then e - 1 else e

/-- Round to the nearest integer, ties to even. -/
def rhe (q : ℚ) : ℤ :=
  let k := ⌊q⌋
  let d := q - k
  if d < 1 / 2 then k else if 1 / 2 < d then k + 1 else if k % 2 = 0 then k else k + 1

/-- Exponent of the unit in the last place at `q ≠ 0`. -/
def fexp (f : Fmt) (q : ℚ) : ℤ := max (ilog2 q - (f.prec - 1)) f.emin

/-- Round to nearest even with gradual underflow, unbounded above. -/
def rnd (f : Fmt) (q : ℚ) : ℚ :=
  if f.exact then q else if q = 0 then 0 else
    let e := fexp f q
    rhe (q / pow2 e) * pow2 e

/-- A value of floating type `f`.  In `fin q z` the flag `z` is the sign of a zero
(`z = true` means `-0`) and is `false` whenever `q ≠ 0`. -/
inductive FV (f : Fmt)
  | nan
  | inf (neg : Bool)
  | fin (q : ℚ) (z : Bool)
  deriving DecidableEq, Repr

namespace FV
variable {f g : Fmt}

/-- Does the rounded magnitude overflow? -/
def overflows (f : Fmt) (r : ℚ) : Bool :=
  !f.exact && (decide (pow2 f.emax ≤ r) || decide (r ≤ -pow2 f.emax))

/-- Round an exact result to the format; `zs` is the sign to give an exact zero. -/
def mk (f : Fmt) (q : ℚ) (zs : Bool) : FV f :=
  let r := rnd f q
  if overflows f r then inf (decide (q < 0))
  else fin r (decide (r = 0) && (decide (q < 0) || (decide (q = 0) && zs)))

/-- The IEEE sign bit (`__builtin_signbit`); the model has a single NaN, taken as non-negative. -/
def sign : FV f → Bool
  | nan => false
  | inf s => s
  | fin q z => if q = 0 then z else decide (q < 0)

def neg : FV f → FV f
  | nan => nan
  | inf s => inf (!s)
  | fin q z => fin (-q) (if q = 0 then !z else z)

def add : FV f → FV f → FV f
  | nan, _ => nan
  | _, nan => nan
  | inf s, inf t => if s = t then inf s else nan
  | inf s, fin _ _ => inf s
  | fin _ _, inf t => inf t
  | fin a za, fin b zb => mk f (a + b) (za && zb)

def sub (x y : FV f) : FV f := add x (neg y)

def mul : FV f → FV f → FV f
  | nan, _ => nan
  | _, nan => nan
  | inf s, inf t => inf (s ^^ t)
  | inf s, fin b zb => if b = 0 then nan else inf (s ^^ sign (fin b zb : FV f))
  | fin a za, inf t => if a = 0 then nan else inf (sign (fin a za : FV f) ^^ t)
  | fin a za, fin b zb => mk f (a * b) (sign (fin a za : FV f) ^^ sign (fin b zb : FV f))

def div : FV f → FV f → FV f
  | nan, _ => nan
  | _, nan => nan
  | inf _, inf _ => nan
  | inf s, fin b zb => inf (s ^^ sign (fin b zb : FV f))
  | fin a za, inf t => fin 0 (sign (fin a za : FV f) ^^ t)
  | fin a za, fin b zb =>
      if b = 0 then
        if a = 0 then nan else inf (sign (fin a za : FV f) ^^ sign (fin b zb : FV f))
      else mk f (a / b) (sign (fin a za : FV f) ^^ sign (fin b zb : FV f))

/-- C++ `x < y` (false if either is NaN). -/
def ltb : FV f → FV f → Bool
  | nan, _ => false
  | _, nan => false
  | inf s, inf t => s && !t
  | inf s, fin _ _ => s
  | fin _ _, inf t => !t
  | fin a _, fin b _ => decide (a < b)

/-- C++ `x <= y` (false if either is NaN). -/
def leb : FV f → FV f → Bool
  | nan, _ => false
  | _, nan => false
  | inf s, inf t => s || !t
  | inf s, fin _ _ => s
  | fin _ _, inf t => !t
  | fin a _, fin b _ => decide (a ≤ b)

/-- C++ `x == y` (false if either is NaN; `+0 == -0`). -/
def eqb : FV f → FV f → Bool
  | nan, _ => false
  | _, nan => false
  | inf s, inf t => s == t
  | inf _, fin _ _ => false
  | fin _ _, inf _ => false
  | fin a _, fin b _ => decide (a = b)

instance : Neg (FV f) := ⟨neg⟩
instance : Add (FV f) := ⟨add⟩
instance : Sub (FV f) := ⟨sub⟩
instance : Mul (FV f) := ⟨mul⟩
instance : Div (FV f) := ⟨div⟩
instance : LT (FV f) := ⟨fun x y => ltb x y = true⟩
instance : LE (FV f) := ⟨fun x y => leb x y = true⟩
instance (x y : FV f) : Decidable (x < y) := inferInstanceAs (Decidable (ltb x y = true))
instance (x y : FV f) : Decidable (x ≤ y) := inferInstanceAs (Decidable (leb x y = true))
/-- `x == y` is the C++ equality, `x = y` is equality of values (distinguishing zeros). -/
instance : BEq (FV f) := ⟨eqb⟩

/-- Integer (or exactly representable) literal converted to the type: `T(0)`, `T(2)`, `-1`… -/
def i (n : ℤ) : FV f := mk f n false
/-- `double` literal converted to the type: `T(0.1)`, `T(1E-04)`; rounded twice as in C++. -/
def d (q : ℚ) : FV f := mk f (rnd f.dbl q) false
/-- `long double` literal converted to the type: `T(0.69…L)`. -/
def L (q : ℚ) : FV f := mk f (rnd f.ldbl q) false

/-- Conversion between floating types. -/
def cast (g : Fmt) : FV f → FV g
  | nan => nan
  | inf s => inf s
  | fin q z => mk g q z

/-- Truncation toward zero of a rational. -/
def ratTrunc (q : ℚ) : ℤ := if 0 ≤ q then ⌊q⌋ else -⌊-q⌋

/-- `static_cast` to an integer type with range `[lo, hi]`. -/
def toInt (lo hi : ℤ) : FV f → Res ℤ
  | nan => .error .castRange
  | inf _ => .error .castRange
  | fin q _ => if lo ≤ ratTrunc q ∧ ratTrunc q ≤ hi then .ok (ratTrunc q) else .error .castRange

/-- `static_cast<int>(x)` -/
def toI32 (x : FV f) : Res ℤ := toInt (-2 ^ 31) (2 ^ 31 - 1) x
/-- `static_cast<long long>(x)` -/
def toI64 (x : FV f) : Res ℤ := toInt (-2 ^ 63) (2 ^ 63 - 1) x
/-- `static_cast<unsigned long long>(x)` -/
def toU64 (x : FV f) : Res ℤ := toInt 0 (2 ^ 64 - 1) x

/-- `GCLIM<T>::min()`, the least positive normal value. -/
def minNormal (f : Fmt) : ℚ := pow2 (f.emin + f.prec - 1)
def limMin : FV f := fin (minNormal f) false
/-- `GCLIM<T>::epsilon()` -/
def limEps : FV f := fin (pow2 (1 - f.prec)) false
/-- `GCLIM<T>::infinity()` -/
def limInf : FV f := inf false
/-- `GCLIM<T>::quiet_NaN()` -/
def limNaN : FV f := nan

/-- `x` is an actual value of the type: finite values are representable and in range,
and only zero carries the zero-sign flag. -/
def Valid : FV f → Prop
  | nan => True
  | inf _ => True
  | fin q z => rnd f q = q ∧ overflows f q = false ∧ (z = true → q = 0)

instance (x : FV f) : Decidable (Valid x) := by
  cases x <;> unfold Valid <;> infer_instance

/-- finite -/
def isFin : FV f → Prop
  | fin _ _ => True
  | _ => False

instance (x : FV f) : Decidable (isFin x) := by
  cases x <;> unfold isFin <;> infer_instance

/-- The rational value of a finite number (junk `0` otherwise). -/
def val : FV f → ℚ
  | fin q _ => q
  | _ => 0

end FV
end Gcem
