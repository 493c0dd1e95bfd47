import Verif.Model.Trig
import Verif.Model.Quad

/-!
# erf, gamma, beta, incomplete beta and gamma functions and inverses
-/

namespace Gcem
open FV
variable {f : Fmt}

/-! ## erf.hpp -/

/-- loop body of erf.hpp:46, right-hand side of erf.hpp:64 -/
def erf_cf_large_step (x : FV f) (depth : ℕ) (res : FV f) : FV f := x + i (2 * depth) / res

/-- erf.hpp:39-52 (C++14) -/
def erf_cf_large_recur (x : FV f) (depth_end : ℕ) : FV f :=
  whileDown (erf_cf_large_step x) (depth_end - 1) (ERF_MAX_ITER - 1) x

/-- erf.hpp:59-67 (C++11) -/
def erf_cf_large_recur_cpp11 (x : FV f) (depth : ℕ) : FV f :=
  if depth < ERF_MAX_ITER then x + i (2 * depth) / erf_cf_large_recur_cpp11 x (depth + 1)
  else x
termination_by ERF_MAX_ITER - depth

/-- erf.hpp:74-79 -/
def erf_cf_large_main (x : FV f) : Res (FV f) := do
  let e ← exp (-x * x)
  .ok (i 1 - i 2 * (e / L SQRT_PI) / erf_cf_large_recur (i 2 * x) 1)

/-- loop body of erf.hpp:96 -/
def erf_cf_small_step (xx : FV f) (depth : ℕ) (res : FV f) : FV f :=
  i (2 * depth - 1) - i 2 * xx + i (4 * depth) * xx / res

/-- erf.hpp:89-102 (C++14) -/
def erf_cf_small_recur (xx : FV f) (depth_end : ℕ) : FV f :=
  whileDown (erf_cf_small_step xx) (depth_end - 1) (ERF_MAX_ITER - 1)
    (i (2 * ERF_MAX_ITER - 1) - i 2 * xx)

/-- erf.hpp:109-118 (C++11): `2*depth - T(1)` is computed in `T` -/
def erf_cf_small_recur_cpp11 (xx : FV f) (depth : ℕ) : FV f :=
  if depth < ERF_MAX_ITER then
    (i (2 * depth) - i 1) - i 2 * xx + i (4 * depth) * xx / erf_cf_small_recur_cpp11 xx (depth + 1)
  else (i (2 * depth) - i 1) - i 2 * xx
termination_by ERF_MAX_ITER - depth

/-- erf.hpp:125-130 -/
def erf_cf_small_main (x : FV f) : Res (FV f) := do
  let e ← exp (-x * x)
  .ok (i 2 * x * (e / L SQRT_PI) / erf_cf_small_recur (x * x) 1)

/-- erf.hpp:137-145 -/
def erf_begin (x : FV f) : Res (FV f) :=
  if x > d 2.1 then erf_cf_large_main x else erf_cf_small_main x

/-- erf.hpp:150-168 -/
def erf_check (x : FV f) : Res (FV f) :=
  if is_nan x then .ok limNaN
  else if is_posinf x then .ok (i 1)
  else if is_neginf x then .ok (-i 1)
  else if limMin > fabs x then .ok (i 0)
  else if x < i 0 then do
    let r ← erf_begin (-x)
    .ok (-r)
  else erf_begin x

/-- erf.hpp:185-189 -/
def erf (x : FV f) : Res (FV f) := erf_check x

/-! ## erf_inv.hpp -/

/-- coefficients of erf_inv.hpp:48-56, order 1..9 -/
def erf_inv_coefs_2 : List ℚ :=
  [-0.000200214257, 0.000100950558, 0.00134934322, -0.003673428440, 0.005739507730,
   -0.00762246130, 0.009438870470, 1.001674060000, 2.83297682000]

/-- coefficients of erf_inv.hpp:79-87, order 1..9 -/
def erf_inv_coefs_1 : List ℚ :=
  [2.81022636e-08, 3.43273939e-07, -3.5233877e-06, -4.39150654e-06, 0.00021858087,
   -0.00125372503, -0.004177681640, 0.24664072700, 1.50140941000]

/-- erf_inv.hpp:63-71 and 94-102: orders 1..9 in turn; order 1 ignores `p_term`
(erf_inv.hpp:45-58 and 76-89) -/
def erf_inv_initial_val_case (a : FV f) (coefs : List ℚ) : FV f :=
  match coefs with
  | [] => i 0
  | c :: cs => cs.foldl (fun p_term c => L c + a * p_term) (L c)

/-- erf_inv.hpp:107-115 -/
def erf_inv_initial_val_int (a : FV f) : Res (FV f) :=
  if a < i 5 then .ok (erf_inv_initial_val_case (a - d 2.5) erf_inv_coefs_1)
  else do
    let s ← sqrt a
    .ok (erf_inv_initial_val_case (s - i 3) erf_inv_coefs_2)

/-- erf_inv.hpp:120-124 -/
def erf_inv_initial_val (x : FV f) : Res (FV f) := do
  let l ← log ((i 1 - x) * (i 1 + x))
  let v ← erf_inv_initial_val_int (-l)
  .ok (x * v)

/-- erf_inv.hpp:141-145 -/
def erf_inv_deriv_1 (value : FV f) : Res (FV f) := exp (-value * value)

/-- erf_inv.hpp:150-154 -/
def erf_inv_deriv_2 (value deriv_1 : FV f) : FV f := deriv_1 * (-i 2 * value)

/-- erf_inv.hpp:132-136 and 159-163 -/
def erf_inv_ratio_val_1 (value p deriv_1 : FV f) : Res (FV f) := do
  let e ← erf value
  .ok ((e - p) / deriv_1)

/-- erf_inv.hpp:168-172 -/
def erf_inv_ratio_val_2 (value deriv_1 : FV f) : FV f := erf_inv_deriv_2 value deriv_1 / deriv_1

/-- erf_inv.hpp:177-181; also incomplete_beta_inv.hpp:242-246, incomplete_gamma_inv.hpp:167-171 -/
def halley (ratio_val_1 ratio_val_2 : FV f) : FV f :=
  ratio_val_1 / fmax (d 0.8) (fmin (d 1.2) (i 1 - d 0.5 * ratio_val_1 * ratio_val_2))

/-- erf_inv.hpp:186-206 (`recur` and `decision` together); `left` is the number of further
iterations, `iter_count = ERF_INV_MAX_ITER - left` -/
def erf_inv_recur (p : FV f) : (left : ℕ) → (value deriv_1 : FV f) → Res (FV f)
  | left, value, deriv_1 => do
    let r1 ← erf_inv_ratio_val_1 value p deriv_1
    let direc := halley r1 (erf_inv_ratio_val_2 value deriv_1)
    match left with
    | left' + 1 => do
      let d1 ← erf_inv_deriv_1 value
      erf_inv_recur p left' (value - direc) d1
    | 0 => .ok (value - direc)

/-- erf_inv.hpp:211-215 -/
def erf_inv_recur_begin (initial_val p : FV f) : Res (FV f) := do
  let d1 ← erf_inv_deriv_1 initial_val
  erf_inv_recur p (ERF_INV_MAX_ITER - 1) initial_val d1

/-- erf_inv.hpp:220-237 -/
def erf_inv_begin (p : FV f) : Res (FV f) :=
  if is_nan p then .ok limNaN
  else if fabs p > i 1 then .ok limNaN
  else if limMin > fabs (i 1 - p) then .ok limInf
  else if limMin > fabs (i 1 + p) then .ok (-limInf)
  else do
    let iv ← erf_inv_initial_val p
    erf_inv_recur_begin iv p

/-- erf_inv.hpp:257-261 -/
def erf_inv (p : FV f) : Res (FV f) := erf_inv_begin p

/-! ## lgamma.hpp, tgamma.hpp -/

/-- lgamma.hpp:54-65, in `long double` -/
def lgamma_coef_term {g : Fmt} (x : FV g) : FV g :=
  L 0.99999999999999709182 + L 57.156235665862923517 / (x + i 1)
    - L 59.597960355475491248 / (x + i 2) + L 14.136097974741747174 / (x + i 3)
    - L 0.49191381609762019978 / (x + i 4) + L 0.33994649984811888699e-4 / (x + i 5)
    + L 0.46523628927048575665e-4 / (x + i 6) - L 0.98374475304879564677e-4 / (x + i 7)
    + L 0.15808870322491248884e-3 / (x + i 8) - L 0.21026444172410488319e-3 / (x + i 9)
    + L 0.21743961811521264320e-3 / (x + i 10) - L 0.16431810653676389022e-3 / (x + i 11)
    + L 0.84418223983852743293e-4 / (x + i 12) - L 0.26190838401581408670e-4 / (x + i 13)
    + L 0.36899182659531622704e-5 / (x + i 14)

/-- lgamma.hpp:70-74: the argument is converted to `long double` and the sum back to `T` -/
def lgamma_term_2 (x : FV f) : Res (FV f) := do
  let l ← log (cast f (lgamma_coef_term (cast f.ldbl x)))
  .ok (L LOG_SQRT_2PI + l)

/-- lgamma.hpp:79-83 -/
def lgamma_term_1 (x : FV f) : Res (FV f) := do
  let l ← log (x + L 5.2421875)
  .ok ((x + d 0.5) * l - (x + L 5.2421875))

/-- lgamma.hpp:88-92 -/
def lgamma_begin (x : FV f) : Res (FV f) := do
  let a ← lgamma_term_1 x
  let b ← lgamma_term_2 x
  .ok (a + b)

/-- lgamma.hpp:97-110 -/
def lgamma_check (x : FV f) : Res (FV f) :=
  if is_nan x then .ok limNaN
  else if limMin > fabs (x - i 1) then .ok (i 0)
  else if limMin > x then .ok limInf
  else lgamma_begin (x - i 1)

/-- lgamma.hpp:129-133 -/
def lgamma (x : FV f) : Res (FV f) := lgamma_check x

/-- tgamma.hpp:34-55 -/
def tgamma_check : (fuel : ℕ) → (x : FV f) → Res (FV f)
  | 0, _ => .error .noReturn
  | n + 1, x =>
    if is_nan x then .ok limNaN
    else if limMin > fabs (x - i 1) then .ok (i 1)
    else if limMin > fabs x then .ok limInf
    else if x < i 0 then do
      let w ← find_whole x
      if limMin > fabs (x - i w) then .ok limNaN
      else do
        let r ← tgamma_check n (x + i 1)
        .ok (r / x)
    else do
      let l ← lgamma x
      exp l

/-- tgamma.hpp:74-78 -/
def tgamma (x : FV f) : Res (FV f) := tgamma_check recFuel x

/-! ## lbeta.hpp, beta.hpp, log_binomial_coef.hpp, lmgamma.hpp -/

/-- lbeta.hpp:36-40, arguments of one floating type -/
def lbeta (a b : FV f) : Res (FV f) := do
  let la ← lgamma a
  let lb ← lgamma b
  let lab ← lgamma (a + b)
  .ok ((la + lb) - lab)

/-- beta.hpp:36-40 -/
def beta (a b : FV f) : Res (FV f) := do
  let l ← lbeta a b
  exp l

/-- log_binomial_coef.hpp:30-34 -/
def log_binomial_coef (n k : FV f) : Res (FV f) := do
  let a ← lgamma (n + i 1)
  let b ← lgamma (k + i 1)
  let c ← lgamma (n - k + i 1)
  .ok (a - (b + c))

/-- lmgamma.hpp:36-50 with an integral second argument (`p - T2(1)` cannot overflow for `p > 1`) -/
def lmgamma_recur (a : FV f) (p : ℤ) : Res (FV f) :=
  if is_nan a then .ok limNaN
  else if p = 1 then lgamma a
  else if p < 1 then .ok limNaN
  else do
    let l ← lgamma a
    let r ← lmgamma_recur (a - d 0.5) (p - 1)
    .ok (L LOG_PI * (i p - i 1) / i 2 + l + r)
termination_by p.toNat
decreasing_by omega

/-- lmgamma.hpp:67-71 -/
def lmgamma (a : FV f) (p : ℤ) : Res (FV f) := lmgamma_recur a p

/-! ## incomplete_beta.hpp -/

/-- incomplete_beta.hpp:42-46 -/
def incomplete_beta_coef_even (a b z : FV f) (k : ℤ) : FV f :=
  -z * (a + i k) * (a + b + i k) / ((a + i (2 * k)) * (a + i (2 * k) + i 1))

/-- incomplete_beta.hpp:51-55 -/
def incomplete_beta_coef_odd (a b z : FV f) (k : ℤ) : FV f :=
  z * i k * (b - i k) / ((a + i (2 * k) - i 1) * (a + i (2 * k)))

/-- incomplete_beta.hpp:60-65 -/
def incomplete_beta_coef (a b z : FV f) (depth : ℕ) : FV f :=
  if depth % 2 = 0 then incomplete_beta_coef_even a b z (depth / 2 : ℕ)
  else incomplete_beta_coef_odd a b z ((depth + 1) / 2 : ℕ)

/-- incomplete_beta.hpp:73-77 -/
def incomplete_beta_c_update (a b z c_j : FV f) (depth : ℕ) : FV f :=
  i 1 + incomplete_beta_coef a b z depth / c_j

/-- incomplete_beta.hpp:82-86 -/
def incomplete_beta_d_update (a b z d_j : FV f) (depth : ℕ) : FV f :=
  i 1 / (i 1 + incomplete_beta_coef a b z depth * d_j)

/-- incomplete_beta.hpp:94-117 (`cf` and `decision` together); `depth = INCML_BETA_MAX_ITER - left`.
The tolerance is a `double` literal: the comparison is done in the wider of `T` and `double`, and
both conversions to `long double` are exact. -/
def incomplete_beta_cf (a b z : FV f) : (left : ℕ) → (c_j d_j f_j : FV f) → FV f
  | left, c_j, d_j, f_j =>
    let depth := INCML_BETA_MAX_ITER - left
    let c_j := incomplete_beta_c_update a b z c_j depth
    let d_j := incomplete_beta_d_update a b z d_j depth
    if cast f.ldbl (fabs (c_j * d_j - i 1)) < (d INCML_BETA_TOL : FV f.ldbl) then f_j * c_j * d_j
    else match left with
      | left' + 1 => incomplete_beta_cf a b z left' c_j d_j (f_j * c_j * d_j)
      | 0 => f_j * c_j * d_j

/-- incomplete_beta.hpp:125-133 -/
def incomplete_beta_begin (a b z : FV f) : Res (FV f) := do
  let lz ← log z
  let l1z ← log (i 1 - z)
  let lb ← lbeta a b
  let e ← exp (a * lz + b * l1z - lb)
  .ok ((e / a) * incomplete_beta_cf a b z (INCML_BETA_MAX_ITER - 1) (i 1)
    (incomplete_beta_d_update a b z (i 1) 0) (incomplete_beta_d_update a b z (i 1) 0))

/-- incomplete_beta.hpp:138-151 -/
def incomplete_beta_check (a b z : FV f) : Res (FV f) :=
  if any_nan3 a b z then .ok limNaN
  else if limMin > z then .ok (i 0)
  else if (a + i 1) / (a + b + i 2) > z then incomplete_beta_begin a b z
  else do
    let r ← incomplete_beta_begin b a (i 1 - z)
    .ok (i 1 - r)

/-- incomplete_beta.hpp:188-192, arguments of one floating type -/
def incomplete_beta (a b z : FV f) : Res (FV f) := incomplete_beta_check a b z

/-! ## incomplete_beta_inv.hpp -/

/-- incomplete_beta_inv.hpp:44-52 -/
def incomplete_beta_inv_initial_val_1_tval (p : FV f) : Res (FV f) :=
  if p > d 0.5 then do
    let l ← log (i 1 - p)
    sqrt (-i 2 * l)
  else do
    let l ← log p
    sqrt (-i 2 * l)

/-- incomplete_beta_inv.hpp:57-62 -/
def incomplete_beta_inv_initial_val_1_int_begin (t : FV f) : FV f :=
  t - (d 2.515517 + d 0.802853 * t + d 0.010328 * t * t)
    / (i 1 + d 1.432788 * t + d 0.189269 * t * t + d 0.001308 * t * t * t)

/-- incomplete_beta_inv.hpp:67-71 -/
def incomplete_beta_inv_initial_val_1_int_ab1 (a b : FV f) : FV f :=
  i 1 / (i 2 * a - i 1) + i 1 / (i 2 * b - i 1)

/-- incomplete_beta_inv.hpp:76-80 -/
def incomplete_beta_inv_initial_val_1_int_ab2 (a b : FV f) : FV f :=
  i 1 / (i 2 * b - i 1) - i 1 / (i 2 * a - i 1)

/-- incomplete_beta_inv.hpp:85-89 -/
def incomplete_beta_inv_initial_val_1_int_h (ab_term_1 : FV f) : FV f := i 2 / ab_term_1

/-- incomplete_beta_inv.hpp:94-100 -/
def incomplete_beta_inv_initial_val_1_int_w (value ab_term_2 h_term : FV f) : Res (FV f) := do
  let s ← sqrt (h_term + (value * value - i 3) / i 6)
  .ok (value * s / h_term
    - ab_term_2 * ((value * value - i 3) / i 6 + i 5 / i 6 - i 2 / (i 3 * h_term)))

/-- incomplete_beta_inv.hpp:105-109 -/
def incomplete_beta_inv_initial_val_1_int_end (a b w_term : FV f) : Res (FV f) := do
  let e ← exp (i 2 * w_term)
  .ok (a / (a + b * e))

/-- incomplete_beta_inv.hpp:114-126 -/
def incomplete_beta_inv_initial_val_1 (a b t_val sgn_term : FV f) : Res (FV f) := do
  let w ← incomplete_beta_inv_initial_val_1_int_w
    (sgn_term * incomplete_beta_inv_initial_val_1_int_begin t_val)
    (incomplete_beta_inv_initial_val_1_int_ab2 a b)
    (incomplete_beta_inv_initial_val_1_int_h (incomplete_beta_inv_initial_val_1_int_ab1 a b))
  incomplete_beta_inv_initial_val_1_int_end a b w

/-- incomplete_beta_inv.hpp:134-138 -/
def incomplete_beta_inv_initial_val_2_s1 (a b : FV f) : Res (FV f) := do
  let p ← pow (a / (a + b)) a
  .ok (p / a)

/-- incomplete_beta_inv.hpp:143-147 -/
def incomplete_beta_inv_initial_val_2_s2 (a b : FV f) : Res (FV f) := do
  let p ← pow (b / (a + b)) b
  .ok (p / b)

/-- incomplete_beta_inv.hpp:152-157 -/
def incomplete_beta_inv_initial_val_2 (a b p s_1 s_2 : FV f) : Res (FV f) :=
  if p ≤ s_1 / (s_1 + s_2) then pow (p * (s_1 + s_2) * a) (i 1 / a)
  else do
    let r ← pow (p * (s_1 + s_2) * b) (i 1 / b)
    .ok (i 1 - r)

/-- incomplete_beta_inv.hpp:164-183 -/
def incomplete_beta_inv_initial_val (a b p : FV f) : Res (FV f) :=
  if a > i 1 ∧ b > i 1 then do
    let t ← incomplete_beta_inv_initial_val_1_tval p
    incomplete_beta_inv_initial_val_1 a b t (if p < d 0.5 then i 1 else i (-1))
  else if p > d 0.5 then do
    let s1 ← incomplete_beta_inv_initial_val_2_s1 b a
    let s2 ← incomplete_beta_inv_initial_val_2_s2 b a
    let r ← incomplete_beta_inv_initial_val_2 b a (i 1 - p) s1 s2
    .ok (i 1 - r)
  else do
    let s1 ← incomplete_beta_inv_initial_val_2_s1 a b
    let s2 ← incomplete_beta_inv_initial_val_2_s2 a b
    incomplete_beta_inv_initial_val_2 a b p s1 s2

/-- incomplete_beta_inv.hpp:200-210 -/
def incomplete_beta_inv_deriv_1 (value a b lb_val : FV f) : Res (FV f) :=
  if limMin > fabs value then .ok (i 0)
  else if limMin > fabs (i 1 - value) then .ok (i 0)
  else do
    let l ← log value
    let l1 ← log (i 1 - value)
    exp ((a - i 1) * l + (b - i 1) * l1 - lb_val)

/-- incomplete_beta_inv.hpp:215-219 -/
def incomplete_beta_inv_deriv_2 (value a b deriv_1 : FV f) : FV f :=
  deriv_1 * ((a - i 1) / value - (b - i 1) / (i 1 - value))

/-- incomplete_beta_inv.hpp:191-195 and 224-228 -/
def incomplete_beta_inv_ratio_val_1 (value a b p deriv_1 : FV f) : Res (FV f) := do
  let e ← incomplete_beta a b value
  .ok ((e - p) / deriv_1)

/-- incomplete_beta_inv.hpp:233-237 -/
def incomplete_beta_inv_ratio_val_2 (value a b deriv_1 : FV f) : FV f :=
  incomplete_beta_inv_deriv_2 value a b deriv_1 / deriv_1

/-- incomplete_beta_inv.hpp:251-281 (`recur` and `decision` together).  `left` is the number of
further iterations: `iter_count = INCML_BETA_INV_MAX_ITER + 1 - left`.  The zero-derivative exit
passes `iter_count = INCML_BETA_INV_MAX_ITER + 1` and `direc = 0`, i.e. returns `value - 0`. -/
def incomplete_beta_inv_recur (a b p lb_val : FV f) : (left : ℕ) → (value deriv_1 : FV f) → Res (FV f)
  | left, value, deriv_1 =>
    if limMin > fabs deriv_1 then .ok (value - i 0)
    else do
      let r1 ← incomplete_beta_inv_ratio_val_1 value a b p deriv_1
      let direc := halley r1 (incomplete_beta_inv_ratio_val_2 value a b deriv_1)
      match left with
      | left' + 1 => do
        let d1 ← incomplete_beta_inv_deriv_1 value a b lb_val
        incomplete_beta_inv_recur a b p lb_val left' (value - direc) d1
      | 0 => .ok (value - direc)

/-- incomplete_beta_inv.hpp:286-292 -/
def incomplete_beta_inv_begin (initial_val a b p lb_val : FV f) : Res (FV f) := do
  let d1 ← incomplete_beta_inv_deriv_1 initial_val a b lb_val
  incomplete_beta_inv_recur a b p lb_val INCML_BETA_INV_MAX_ITER initial_val d1

/-- incomplete_beta_inv.hpp:297-311 -/
def incomplete_beta_inv_check (a b p : FV f) : Res (FV f) :=
  if any_nan3 a b p then .ok limNaN
  else if limMin > p then .ok (i 0)
  else if limMin > fabs (i 1 - p) then .ok (i 1)
  else do
    let iv ← incomplete_beta_inv_initial_val a b p
    let lb ← lbeta a b
    incomplete_beta_inv_begin iv a b p lb

/-- incomplete_beta_inv.hpp:346-350, arguments of one floating type -/
def incomplete_beta_inv (a b p : FV f) : Res (FV f) := incomplete_beta_inv_check a b p

/-! ## incomplete_gamma.hpp -/

/-- incomplete_gamma.hpp:36-40: the table is `long double`, so the expression is evaluated there -/
def incomplete_gamma_quad_inp_vals (lb ub : FV f) (counter : ℕ) : FV f :=
  cast f (cast f.ldbl (ub - lb) * L (gauss_legendre_50_points.getD counter 0) / i 2
    + cast f.ldbl ((ub + lb) / i 2))

/-- incomplete_gamma.hpp:45-49 -/
def incomplete_gamma_quad_weight_vals (lb ub : FV f) (counter : ℕ) : FV f :=
  cast f (cast f.ldbl (ub - lb) * L (gauss_legendre_50_weights.getD counter 0) / i 2)

/-- incomplete_gamma.hpp:54-58 -/
def incomplete_gamma_quad_fn (x a lg_term : FV f) : Res (FV f) := do
  let l ← log x
  exp (-x + (a - i 1) * l - lg_term)

/-- incomplete_gamma.hpp:63-74 -/
def incomplete_gamma_quad_recur (lb ub a lg_term : FV f) (counter : ℕ) : Res (FV f) :=
  if counter < 49 then do
    let v ← incomplete_gamma_quad_fn (incomplete_gamma_quad_inp_vals lb ub counter) a lg_term
    let r ← incomplete_gamma_quad_recur lb ub a lg_term (counter + 1)
    .ok (v * incomplete_gamma_quad_weight_vals lb ub counter + r)
  else do
    let v ← incomplete_gamma_quad_fn (incomplete_gamma_quad_inp_vals lb ub counter) a lg_term
    .ok (v * incomplete_gamma_quad_weight_vals lb ub counter)
termination_by 49 - counter

/-- multiplier table of incomplete_gamma.hpp:82-93 -/
def incomplete_gamma_quad_lb_mult (a : FV f) : ℤ :=
  if a > i 1000 then 11 else if a > i 800 then 11 else if a > i 500 then 10
  else if a > i 300 then 10 else if a > i 100 then 9 else if a > i 90 then 9
  else if a > i 70 then 8 else if a > i 50 then 7 else if a > i 40 then 6
  else if a > i 30 then 5 else 4

/-- incomplete_gamma.hpp:79-94 -/
def incomplete_gamma_quad_lb (a z : FV f) : Res (FV f) := do
  let s ← sqrt a
  .ok (fmax (i 0) (fmin z a - i (incomplete_gamma_quad_lb_mult a) * s))

/-- multiplier table of incomplete_gamma.hpp:102-111 -/
def incomplete_gamma_quad_ub_mult (a : FV f) : ℤ :=
  if a > i 1000 then 10 else if a > i 800 then 10 else if a > i 500 then 9
  else if a > i 300 then 9 else if a > i 100 then 8 else if a > i 90 then 8
  else if a > i 70 then 7 else if a > i 50 then 6 else 5

/-- incomplete_gamma.hpp:99-112 -/
def incomplete_gamma_quad_ub (a z : FV f) : Res (FV f) := do
  let s ← sqrt a
  .ok (fmin z (a + i (incomplete_gamma_quad_ub_mult a) * s))

/-- incomplete_gamma.hpp:117-121 -/
def incomplete_gamma_quad (a z : FV f) : Res (FV f) := do
  let lb ← incomplete_gamma_quad_lb a z
  let ub ← incomplete_gamma_quad_ub a z
  let lg ← lgamma a
  incomplete_gamma_quad_recur lb ub a lg 0

/-- incomplete_gamma.hpp:129-137 -/
def incomplete_gamma_cf_2_recur (a z : FV f) (depth : ℕ) : FV f :=
  if depth < 100 then
    (i (1 + (depth - 1) * 2) - a + z)
      + i depth * (a - i depth) / incomplete_gamma_cf_2_recur a z (depth + 1)
  else i (1 + (depth - 1) * 2) - a + z
termination_by 100 - depth

/-- incomplete_gamma.hpp:142-146 -/
def incomplete_gamma_cf_2 (a z : FV f) : Res (FV f) := do
  let l ← log z
  let lg ← lgamma a
  let e ← exp (a * l - z - lg)
  .ok (i 1 - e / incomplete_gamma_cf_2_recur a z 1)

/-- incomplete_gamma.hpp:154-158 -/
def incomplete_gamma_cf_1_coef (a z : FV f) (depth : ℕ) : FV f :=
  if depth % 2 = 1 then -(a - i 1 + i (depth + 1) / i 2) * z else i depth / i 2 * z

/-- incomplete_gamma.hpp:163-171 -/
def incomplete_gamma_cf_1_recur (a z : FV f) (depth : ℕ) : FV f :=
  if depth < INCML_GAMMA_MAX_ITER then
    (a + i depth - i 1)
      + incomplete_gamma_cf_1_coef a z depth / incomplete_gamma_cf_1_recur a z (depth + 1)
  else a + i depth - i 1
termination_by INCML_GAMMA_MAX_ITER - depth

/-- incomplete_gamma.hpp:176-180 -/
def incomplete_gamma_cf_1 (a z : FV f) : Res (FV f) := do
  let l ← log z
  let lg ← lgamma a
  let e ← exp (a * l - z - lg)
  .ok (e / incomplete_gamma_cf_1_recur a z 1)

/-- incomplete_gamma.hpp:187-209 -/
def incomplete_gamma_check (a z : FV f) : Res (FV f) :=
  if any_nan a z then .ok limNaN
  else if a < i 0 then .ok limNaN
  else if limMin > z then .ok (i 0)
  else if limMin > a then .ok (i 1)
  else if a < i 10 ∧ z - a < i 10 then incomplete_gamma_cf_1 a z
  else if a < i 10 ∨ z / a > i 3 then incomplete_gamma_cf_2 a z
  else incomplete_gamma_quad a z

/-- incomplete_gamma.hpp:241-245, arguments of one floating type -/
def incomplete_gamma (a z : FV f) : Res (FV f) := incomplete_gamma_check a z

/-! ## incomplete_gamma_inv.hpp -/

/-- incomplete_gamma_inv.hpp:40-44 -/
def incomplete_gamma_inv_t_val_1 (p : FV f) : Res (FV f) :=
  if p > d 0.5 then do
    let l ← log (i 1 - p)
    sqrt (i (-2) * l)
  else do
    let l ← log p
    sqrt (i (-2) * l)

/-- incomplete_gamma_inv.hpp:49-53 -/
def incomplete_gamma_inv_t_val_2 (a : FV f) : FV f := i 1 - d 0.253 * a - d 0.12 * a * a

/-- incomplete_gamma_inv.hpp:60-65 -/
def incomplete_gamma_inv_initial_val_1_int_begin (t : FV f) : FV f :=
  t - (L 2.515517 + L 0.802853 * t + L 0.010328 * t * t)
    / (i 1 + L 1.432788 * t + L 0.189269 * t * t + L 0.001308 * t * t * t)

/-- incomplete_gamma_inv.hpp:70-74 -/
def incomplete_gamma_inv_initial_val_1_int_end (value_inp a : FV f) : Res (FV f) := do
  let s ← sqrt a
  .ok (fmax (d 1e-4) (a * pow_integral_int (i 1 - i 1 / (i 9 * a) - value_inp / (i 3 * s)) 3))

/-- incomplete_gamma_inv.hpp:79-83 -/
def incomplete_gamma_inv_initial_val_1 (a t_val sgn_term : FV f) : Res (FV f) :=
  incomplete_gamma_inv_initial_val_1_int_end
    (sgn_term * incomplete_gamma_inv_initial_val_1_int_begin t_val) a

/-- incomplete_gamma_inv.hpp:88-96 -/
def incomplete_gamma_inv_initial_val_2 (a p t_val : FV f) : Res (FV f) :=
  if p < t_val then pow (p / t_val) (i 1 / a)
  else do
    let l ← log (i 1 - (p - t_val) / (i 1 - t_val))
    .ok (i 1 - l)

/-- incomplete_gamma_inv.hpp:103-114 -/
def incomplete_gamma_inv_initial_val (a p : FV f) : Res (FV f) :=
  if a > i 1 then do
    let t ← incomplete_gamma_inv_t_val_1 p
    incomplete_gamma_inv_initial_val_1 a t (if p > d 0.5 then i (-1) else i 1)
  else incomplete_gamma_inv_initial_val_2 a p (incomplete_gamma_inv_t_val_2 a)

/-- incomplete_gamma_inv.hpp:131-135 -/
def incomplete_gamma_inv_deriv_1 (value a lg_val : FV f) : Res (FV f) := do
  let l ← log value
  exp (-value + (a - i 1) * l - lg_val)

/-- incomplete_gamma_inv.hpp:140-144 -/
def incomplete_gamma_inv_deriv_2 (value a deriv_1 : FV f) : FV f :=
  deriv_1 * ((a - i 1) / value - i 1)

/-- incomplete_gamma_inv.hpp:122-126 and 149-153 -/
def incomplete_gamma_inv_ratio_val_1 (value a p deriv_1 : FV f) : Res (FV f) := do
  let e ← incomplete_gamma a value
  .ok ((e - p) / deriv_1)

/-- incomplete_gamma_inv.hpp:158-162 -/
def incomplete_gamma_inv_ratio_val_2 (value a deriv_1 : FV f) : FV f :=
  incomplete_gamma_inv_deriv_2 value a deriv_1 / deriv_1

/-- incomplete_gamma_inv.hpp:176-199 (`recur` and `decision` together);
`iter_count = INCML_GAMMA_INV_MAX_ITER + 1 - left` -/
def incomplete_gamma_inv_recur (a p lg_val : FV f) : (left : ℕ) → (value deriv_1 : FV f) → Res (FV f)
  | left, value, deriv_1 => do
    let r1 ← incomplete_gamma_inv_ratio_val_1 value a p deriv_1
    let direc := halley r1 (incomplete_gamma_inv_ratio_val_2 value a deriv_1)
    match left with
    | left' + 1 => do
      let d1 ← incomplete_gamma_inv_deriv_1 value a lg_val
      incomplete_gamma_inv_recur a p lg_val left' (value - direc) d1
    | 0 => .ok (value - direc)

/-- incomplete_gamma_inv.hpp:204-209 -/
def incomplete_gamma_inv_begin (initial_val a p lg_val : FV f) : Res (FV f) := do
  let d1 ← incomplete_gamma_inv_deriv_1 initial_val a lg_val
  incomplete_gamma_inv_recur a p lg_val INCML_GAMMA_INV_MAX_ITER initial_val d1

/-- incomplete_gamma_inv.hpp:214-232 -/
def incomplete_gamma_inv_check (a p : FV f) : Res (FV f) :=
  if any_nan a p then .ok limNaN
  else if limMin > p then .ok (i 0)
  else if p > i 1 then .ok limNaN
  else if limMin > fabs (i 1 - p) then .ok limInf
  else if limMin > a then .ok (i 0)
  else do
    let iv ← incomplete_gamma_inv_initial_val a p
    let lg ← lgamma a
    incomplete_gamma_inv_begin iv a p lg

/-- incomplete_gamma_inv.hpp:265-269, arguments of one floating type -/
def incomplete_gamma_inv (a p : FV f) : Res (FV f) := incomplete_gamma_inv_check a p

end Gcem
