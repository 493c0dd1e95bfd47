import Verif.IntModel
import Verif.Model.Elem
import Verif.Model.Trig
import Verif.Model.Special

/-!
# Calls with mixed or integral argument types

gcem_options.hpp:76-83 defines

* `return_t<T>`: `double` for an integral `T`, otherwise `T`,
* `common_t<T...>`: `std::common_type<T...>::type`,
* `common_return_t<T...>`: `return_t<common_t<T...>>`.

The two- and three-argument functions convert every argument to `TC` (one of the last two) and continue with
the one-type version.  `lbeta`, `beta`, `pow`, `max`, `min`, `gcd` are different and are modelled below from
their own text.  Only the real formats are used here (`exact = false`).
-/

namespace Gcem

open FV IntTy

/-- the real format of a floating type -/
abbrev FTy.fmt (ty : FTy) : Fmt := ⟨ty, false⟩

/-- An arithmetic type of rank at least `int`. -/
inductive ATy | int (t : IntTy) | flt (ty : FTy)
  deriving DecidableEq, Repr

/-- the floating type of higher rank -/
def FTy.wider : FTy → FTy → FTy
  | .float, t => t
  | .double, .ldouble => .ldouble
  | .double, _ => .double
  | .ldouble, _ => .ldouble

/-- gcem_options.hpp:79-80 `common_t<T1,T2>` (usual arithmetic conversions): a floating type beats every
integer type, whatever the widths. -/
def commonTy : ATy → ATy → ATy
  | .int s, .int t => .int (common s t)
  | .int _, .flt b => .flt b
  | .flt a, .int _ => .flt a
  | .flt a, .flt b => .flt (a.wider b)

/-- gcem_options.hpp:76-77 `return_t<T>` -/
def returnTy : ATy → FTy
  | .int _ => .double
  | .flt ty => ty

/-- A function argument: its static type and its value. -/
inductive Arg
  | int (t : IntTy) (n : ℤ)
  | flt (ty : FTy) (v : FV ty.fmt)

def Arg.ty : Arg → ATy
  | .int t _ => .int t
  | .flt ty _ => .flt ty

/-- the argument is a value of its type -/
def Arg.Ok : Arg → Prop
  | .int t n => t.has n
  | .flt _ v => Valid v

/-- `static_cast<TC>(x)` for a floating `TC` -/
def Arg.to (ty : FTy) : Arg → FV ty.fmt
  | .int _ n => i n
  | .flt _ v => FV.cast ty.fmt v

/-- gcem_options.hpp:82-83 `common_return_t<T1,T2>` -/
abbrev callTy (a b : Arg) : FTy := returnTy (commonTy a.ty b.ty)
/-- `common_return_t<T1,T2,T3>` -/
abbrev callTy3 (a b c : Arg) : FTy := returnTy (commonTy (commonTy a.ty b.ty) c.ty)

/-- fmod.hpp:43-50 and 61-68 -/
def fmodA (a b : Arg) : Res (FV (callTy a b).fmt) := fmod (a.to _) (b.to _)
/-- hypot.hpp:62-69 and 81-88 -/
def hypotA (a b : Arg) : Res (FV (callTy a b).fmt) := hypot (a.to _) (b.to _)
/-- atan2.hpp:58-65 and 79-86; the two parameter swaps are those of `Gcem.atan2` -/
def atan2A (y x : Arg) : Res (FV (callTy y x).fmt) := .ok (atan2 (y.to _) (x.to _))
/-- log_binomial_coef.hpp:36-43 and 56-63 -/
def log_binomial_coefA (n k : Arg) : Res (FV (callTy n k).fmt) := log_binomial_coef (n.to _) (k.to _)
/-- incomplete_gamma.hpp:211-219 and 238-245 -/
def incomplete_gammaA (a z : Arg) : Res (FV (callTy a z).fmt) := incomplete_gamma (a.to _) (z.to _)
/-- incomplete_gamma_inv.hpp:234-242 and 262-269 -/
def incomplete_gamma_invA (a p : Arg) : Res (FV (callTy a p).fmt) := incomplete_gamma_inv (a.to _) (p.to _)
/-- incomplete_beta.hpp:153-162 and 185-192 -/
def incomplete_betaA (a b z : Arg) : Res (FV (callTy3 a b z).fmt) := incomplete_beta (a.to _) (b.to _) (z.to _)

/-! ## max and min -/

/-- max.hpp:32-39 with at least one floating argument: `y < x` and the result are both in the common type.
(Two integers: `maxI`.) -/
def maxA (a b : Arg) : FV (callTy a b).fmt := fmax (a.to _) (b.to _)
/-- min.hpp:32-39 with at least one floating argument -/
def minA (a b : Arg) : FV (callTy a b).fmt := fmin (a.to _) (b.to _)

/-! ## lbeta and beta: no conversion before the arithmetic -/

/-- lgamma.hpp:125-132: `lgamma(x)` converts its own argument to `return_t<T>`. -/
def lgammaA (a : Arg) : Res (FV (returnTy a.ty).fmt) := lgamma (a.to _)

/-- The C++ expression `a + b`. -/
def addA : Arg → Arg → Res Arg
  | .int s n, .int t m => do
      let r ← (common s t).arith ((common s t).conv n + (common s t).conv m)
      .ok (.int (common s t) r)
  | .int _ n, .flt b w => .ok (.flt b (i n + w))
  | .flt a v, .int _ m => .ok (.flt a (v + i m))
  | .flt a v, .flt b w => .ok (.flt (a.wider b) (FV.cast _ v + FV.cast _ w))

/-- lbeta.hpp:33-40: `(lgamma(a) + lgamma(b)) - lgamma(a+b)`.  Each `lgamma` runs in the return type of its own
argument; `a+b` is an integer addition if both are integers. -/
def lbetaA (a b : Arg) : Res (FV (callTy a b).fmt) := do
  let la ← lgammaA a
  let lb ← lgammaA b
  let s ← addA a b
  let ls ← lgammaA s
  let w := (returnTy a.ty).wider (returnTy b.ty)
  .ok (FV.cast _ ((FV.cast w.fmt la + FV.cast w.fmt lb) - FV.cast w.fmt ls))

/-- beta.hpp:33-40: `exp(lbeta(a,b))` -/
def betaA (a b : Arg) : Res (FV (callTy a b).fmt) := do
  let l ← lbetaA a b
  exp l

/-! ## pow -/

/-- pow.hpp:40-51 (floating exponent): the sign test is made in the type of the base, the computation in the
common type. -/
def powA_real (base : Arg) (te : FTy) (e : FV te.fmt) : Res (FV (callTy base (.flt te e)).fmt) :=
  match base with
  | .int t n => if n < 0 then .ok limNaN else pow_dbl ((Arg.int t n).to _) ((Arg.flt te e).to _)
  | .flt tb v => if v < i 0 then .ok limNaN else pow_dbl ((Arg.flt tb v).to _) ((Arg.flt te e).to _)

/-! ## gcd, lcm, binomial_coef, factorial with floating arguments -/

/-- gcd.hpp:45-52: both arguments are truncated to `unsigned long long`; the result is converted back. -/
def gcdF {f : Fmt} (a b : FV f) : Res (FV f) := do
  let x ← toU64 (fabs a)
  let y ← toU64 (fabs b)
  let g ← gcd_recur ullint x y
  .ok (i g)

/-- lcm.hpp:27-34, floating `T`: `abs(a * (b / gcd(a,b)))` in floating arithmetic. -/
def lcmF {f : Fmt} (a b : FV f) : Res (FV f) := do
  let g ← gcdF a b
  .ok (fabs (a * (b / g)))

/-- binomial_coef.hpp:49-59, floating `T`: both arguments are truncated to `unsigned long long`. -/
def binomial_coefF {f : Fmt} (n k : FV f) : Res (FV f) := do
  let x ← toU64 n
  let y ← toU64 k
  let r ← binomial_coef_recur ullint x y
  .ok (i r)

/-- factorial.hpp:71-78, floating `T`: `tgamma(x + 1)`. -/
def factorialF {f : Fmt} (x : FV f) : Res (FV f) := tgamma (x + i 1)

/-! ## incomplete_beta_inv with integer arguments only -/

/-- incomplete_beta_inv.hpp:41-52, `T` an integer type: `T(0.5)` is `0`, `log` of an integer is a `double`, and
the `double` result of `sqrt` is converted back to `T`. -/
def ibi_tval_int (t : IntTy) (p : ℤ) : Res ℤ := do
  let x ← if p > 0 then t.arith (1 - p) else .ok p
  let l ← logI x
  let s ← sqrt (i (t.conv (-2)) * l : FV binary64)
  toInt t.lo t.hi s

/-- incomplete_beta_inv.hpp:131-138 and 140-147, `T` an integer type (`s2(a,b)` is `s1(b,a)`). -/
def ibi_s1_int (t : IntTy) (a b : ℤ) : Res ℤ := do
  let s ← t.arith (a + b)
  let q ← t.idiv a s
  let r ← powI t t q a
  t.idiv r a

/-- incomplete_beta_inv.hpp:149-157, `T` an integer type: the test and the two branches. -/
def ibi_val2_int (t : IntTy) (a b p s1 s2 : ℤ) : Res ℤ := do
  let s ← t.arith (s1 + s2)
  let q ← t.idiv s1 s
  let ps ← t.arith (p * s)
  if p ≤ q then do
    let x ← t.arith (ps * a)
    let e ← t.idiv 1 a
    powI t t x e
  else do
    let x ← t.arith (ps * b)
    let e ← t.idiv 1 b
    let r ← powI t t x e
    t.arith (1 - r)

/-- incomplete_beta_inv.hpp:161-183 and 294-311, `T` an integer type.  The tests at 303-306 compare with
`GCLIM<T>::min()`, the lowest value of the type, and never succeed.  What follows the
points considered here is left open: `init` turns the value of 41-52 into the start value for `a, b > 1`, and `rest`
is the Halley iteration. -/
def ibi_int (t : IntTy) (init rest : ℤ → Res ℤ) (a b p : ℤ) : Res ℤ :=
  if t.lo > p then .ok 0
  else do
    let d ← t.arith (1 - p)
    let d' ← absI t d
    if t.lo > d' then .ok 1
    else do
      let v ← if a > 1 ∧ b > 1 then do
          let tv ← ibi_tval_int t p
          init tv
        else if p > 0 then do
          let s1 ← ibi_s1_int t b a
          let s2 ← ibi_s1_int t a b
          let q ← t.arith (1 - p)
          let v ← ibi_val2_int t b a q s1 s2
          t.arith (1 - v)
        else do
          let s1 ← ibi_s1_int t a b
          let s2 ← ibi_s1_int t b a
          ibi_val2_int t a b p s1 s2
      rest v

end Gcem
