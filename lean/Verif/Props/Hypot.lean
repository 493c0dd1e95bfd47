import Verif.Props.InvSqrt

/-!
# C29: hypot
-/

namespace Gcem.Props
open Gcem FV
variable {f : Fmt}

/-- C29: special values.  NaN wins over infinity; an infinity gives `+inf`; if the first argument is
zero or subnormal the result is `|y|`, otherwise if the second is, `|x|`. -/
theorem C29_special :
    (∀ x : FV f, hypot nan x = .ok nan ∧ hypot x nan = .ok nan) ∧
    (∀ (s : Bool) (x : FV f), x ≠ nan → hypot (inf s) x = .ok (inf false) ∧ hypot x (inf s) = .ok (inf false)) ∧
    (∀ (q : ℚ) (z : Bool) (p : ℚ) (w : Bool), |q| < minNormal f →
      hypot (fin q z : FV f) (fin p w) = .ok (fabs (fin p w))) ∧
    (∀ (q : ℚ) (z : Bool) (p : ℚ) (w : Bool), minNormal f ≤ |q| → |p| < minNormal f →
      hypot (fin q z : FV f) (fin p w) = .ok (fabs (fin q z))) := by
  refine ⟨?_, ?_, ?_, ?_⟩
  · intro x; constructor <;> simp [hypot, hypot_vals_check, any_nan, limNaN]
  · intro s x hx
    constructor <;> cases x <;> simp_all [hypot, hypot_vals_check, any_nan, any_inf, limInf]
  · intro q z p w h
    unfold hypot hypot_vals_check
    rw [if_neg (by simp [any_nan]), if_neg (by simp [any_inf]), if_pos (limMin_gt_fabs.2 h)]
  · intro q z p w h1 h2
    unfold hypot hypot_vals_check
    rw [if_neg (by simp [any_nan]), if_neg (by simp [any_inf]),
      if_neg (by rw [limMin_gt_fabs]; exact not_lt.2 h1), if_pos (limMin_gt_fabs.2 h2)]

theorem is_nan_neg' (x : FV f) : is_nan (-x) = is_nan x := by cases x <;> simp [neg_fin]
theorem is_inf_neg' (x : FV f) : is_inf (-x) = is_inf x := by cases x <;> simp [neg_fin]

/-- C29: the signs of the arguments do not matter, bit for bit. -/
theorem C29_sign (x y : FV f) : hypot (-x) y = hypot x y ∧ hypot x (-y) = hypot x y := by
  constructor
  · unfold hypot hypot_vals_check hypot_compute any_nan any_inf
    rw [is_nan_neg', is_inf_neg', fabs_neg, div_neg', neg_mul_neg']
  · unfold hypot hypot_vals_check hypot_compute any_nan any_inf
    rw [is_nan_neg', is_inf_neg', fabs_neg, neg_div', neg_mul_neg']

example : hypot (fin (-3) false : FV binary64) (fin 4 false) = .ok (fin 5 false) := by decide +kernel

/-- C29 (negation): the arguments may not be exchanged: already for the integers 1 and 3 the results
differ in the last place, and for `2^-600`, `2^600` one order overflows and the other does not. -/
theorem C29_not_symmetric :
    hypot (fin 1 false : FV binary64) (fin 3 false) ≠ hypot (fin 3 false) (fin 1 false) ∧
    hypot (fin (pow2 (-600)) false : FV binary64) (fin (pow2 600) false) = .ok (inf false) ∧
    hypot (fin (pow2 600) false : FV binary64) (fin (pow2 (-600)) false) = .ok (fin (pow2 600) false) := by
  decide +kernel

/-- Bound on the quotient `|y/x|` for which the squares cannot overflow. -/
def hypotExp : FTy → ℕ | .float => 62 | .double => 510 | .ldouble => 8190

theorem hyp_real {u η ρ d d2 w : ℝ} (hu : 0 < u) (hu1 : u ≤ 1 / 16777216) (hη0 : 0 ≤ η) (hη : η ≤ u / 1024)
    (hd : |d - ρ| ≤ u * |ρ| + η) (hd2 : |d2 - d * d| ≤ u * |d * d| + η) (hw : |w - (1 + d2)| ≤ u * |1 + d2|) :
    |w - (1 + ρ ^ 2)| ≤ 4.2 * u * (1 + ρ ^ 2) := by
  have hη1 : η ≤ 1 / 1024 := by linarith
  have hρ := abs_nonneg ρ
  have hρ2 : |ρ| ^ 2 = ρ ^ 2 := sq_abs ρ
  have hρl : |ρ| ≤ (1 + ρ ^ 2) / 2 := by rw [← hρ2]; nlinarith [sq_nonneg (|ρ| - 1)]
  have k1 : |d + ρ| ≤ 2.001 * |ρ| + η := by
    have : d + ρ = (d - ρ) + 2 * ρ := by ring
    rw [this]
    refine (abs_add_le _ _).trans ?_
    rw [abs_mul]; norm_num; nlinarith
  have k2 : |d * d - ρ ^ 2| ≤ (u * |ρ| + η) * (2.001 * |ρ| + η) := by
    have : d * d - ρ ^ 2 = (d - ρ) * (d + ρ) := by ring
    rw [this, abs_mul]
    exact mul_le_mul hd k1 (abs_nonneg _) (by positivity)
  have k3 : (u * |ρ| + η) * (2.001 * |ρ| + η) ≤ 2.002 * u * (1 + ρ ^ 2) := by
    have e : (u * |ρ| + η) * (2.001 * |ρ| + η) = 2.001 * u * |ρ| ^ 2 + (u * η + 2.001 * η) * |ρ| + η ^ 2 := by ring
    rw [e, hρ2]
    have h1 : (u * η + 2.001 * η) * |ρ| ≤ (u / 500) * |ρ| := by
      apply mul_le_mul_of_nonneg_right _ hρ
      nlinarith [mul_le_mul hη hu1 hu.le (by linarith : (0:ℝ) ≤ u / 1024)]
    have h2 : η ^ 2 ≤ u / 1024 / 1024 := by nlinarith
    nlinarith [sq_nonneg ρ, mul_nonneg hu.le (sq_nonneg ρ)]
  have k4 := k2.trans k3
  have hdd : |d * d| ≤ 1.001 * (1 + ρ ^ 2) := by
    have : d * d = (d * d - ρ ^ 2) + ρ ^ 2 := by ring
    rw [this]
    refine (abs_add_le _ _).trans ?_
    rw [abs_of_nonneg (sq_nonneg ρ)]
    nlinarith [sq_nonneg ρ, mul_nonneg hu.le (sq_nonneg ρ)]
  have k5 : |d2 - ρ ^ 2| ≤ 3.1 * u * (1 + ρ ^ 2) := by
    have : d2 - ρ ^ 2 = (d2 - d * d) + (d * d - ρ ^ 2) := by ring
    rw [this]
    refine (abs_add_le _ _).trans ?_
    have : u * |d * d| ≤ u * (1.001 * (1 + ρ ^ 2)) := by gcongr
    nlinarith [sq_nonneg ρ, mul_nonneg hu.le (sq_nonneg ρ)]
  have k6 : |1 + d2| ≤ 1.001 * (1 + ρ ^ 2) := by
    have : 1 + d2 = (d2 - ρ ^ 2) + (1 + ρ ^ 2) := by ring
    rw [this]
    refine (abs_add_le _ _).trans ?_
    rw [abs_of_nonneg (show 0 ≤ 1 + ρ ^ 2 by positivity)]
    nlinarith [sq_nonneg ρ, mul_nonneg hu.le (sq_nonneg ρ)]
  have : w - (1 + ρ ^ 2) = (w - (1 + d2)) + (d2 - ρ ^ 2) := by ring
  rw [this]
  refine (abs_add_le _ _).trans ?_
  have h7 : u * |1 + d2| ≤ u * (1.001 * (1 + ρ ^ 2)) := by gcongr
  nlinarith [sq_nonneg ρ, mul_nonneg hu.le (sq_nonneg ρ)]

theorem combine3 {w s u E : ℝ} (hu : 0 ≤ u) (hE1 : E ≤ 1 / 1000)
    (hw : |w - 1| ≤ 2.2 * u) (hs : |s - 1| ≤ E) :
    |w * s - 1| ≤ E + 2.21 * u := by
  have e : w * s - 1 = (s - 1) * (w - 1) + (s - 1) + (w - 1) := by ring
  rw [e]
  calc |(s - 1) * (w - 1) + (s - 1) + (w - 1)|
      ≤ |(s - 1) * (w - 1) + (s - 1)| + |w - 1| := abs_add_le _ _
    _ ≤ |(s - 1) * (w - 1)| + |s - 1| + |w - 1| := by gcongr; exact abs_add_le _ _
    _ = |s - 1| * |w - 1| + |s - 1| + |w - 1| := by rw [abs_mul]
    _ ≤ 1 / 1000 * (2.2 * u) + E + 2.2 * u := by
        have : |s - 1| * |w - 1| ≤ 1 / 1000 * (2.2 * u) :=
          mul_le_mul (hs.trans hE1) hw (abs_nonneg _) (by norm_num)
        linarith
    _ ≤ _ := by linarith

theorem hyp_final {r a s P u E mn : ℝ} (hu : 0 < u) (ha : 0 < a) (hP1 : 1 ≤ P) (hE1 : E + 2.21 * u ≤ 1 / 200)
    (hmn : mn ≤ a) (hsP : |s - P| ≤ (E + 2.21 * u) * P) (h1 : |r - a * s| ≤ u * (a * s) + u * mn) :
    |r - a * P| ≤ (E + 4.3 * u) * (a * P) := by
  have haP : a ≤ a * P := by nlinarith
  have hsP2 : s ≤ 1.01 * P := by
    have := (abs_le.1 hsP).2
    nlinarith
  have h2 : u * (a * s) ≤ u * (1.01 * (a * P)) := by
    apply mul_le_mul_of_nonneg_left _ hu.le
    nlinarith
  have h3 : u * mn ≤ u * (a * P) := mul_le_mul_of_nonneg_left (hmn.trans haP) hu.le
  have h4 : a * |s - P| ≤ a * ((E + 2.21 * u) * P) := mul_le_mul_of_nonneg_left hsP ha.le
  have e : r - a * P = (r - a * s) + a * (s - P) := by ring
  rw [e]
  refine (abs_add_le _ _).trans ?_
  rw [abs_mul a, abs_of_pos ha]
  have : 0 ≤ u * (a * P) := by positivity
  nlinarith

theorem hypot_acc (hf : f.exact = false) {x y : ℚ} {zx zy : Bool} (hx : Valid (fin x zx : FV f))
    (hxn : minNormal f ≤ |x|) (hyn : minNormal f ≤ |y|) (hxy : |y| ≤ 2 ^ hypotExp f.ty * |x|) :
    hypot (fin x zx : FV f) (fin y zy) = .ok (inf false) ∨
    ∃ r : ℚ, hypot (fin x zx : FV f) (fin y zy) = .ok (fin r false) ∧
      |(r:ℝ) - √((x:ℝ) ^ 2 + (y:ℝ) ^ 2)| ≤
        (1.52 * sqrtLev f.ty + 9.3) * uro f * √((x:ℝ) ^ 2 + (y:ℝ) ^ 2) := by
  have hmn := minNormal_pos f
  have hx0 : x ≠ 0 := by rintro rfl; simp at hxn; linarith
  have hxa : 0 < |x| := by linarith
  have hu := uro_pos_real f
  have hu1 := uro_le f
  have hE2 : 2 * (hypotExp f.ty : ℤ) + 3 ≤ f.emax := by rcases f with ⟨⟨⟩, ⟨⟩⟩ <;> decide
  set N := hypotExp f.ty with hN
  have hrN : Rep f ((2:ℚ) ^ N) := rep_pow2_nat
  have novN : ∀ v : ℚ, |v| ≤ 2 ^ (2 * N + 1) → overflows f (rnd f v) = false := by
    intro v hv
    refine nov_of_lt (r := 2 ^ (2 * N + 1)) rep_pow2_nat ?_ (by
      rw [abs_of_pos (show (0:ℚ) < 2 ^ (2 * N + 1) by positivity)]; exact hv)
    rw [overflows_false_iff]; right
    rw [abs_of_pos (by positivity), ← pow2_nat]
    exact pow2_lt (by push_cast; omega)
  have hp1 : (1:ℚ) ≤ 2 ^ N := one_le_pow₀ (by norm_num)
  have hp2 : (2:ℚ) ^ (2 * N + 1) = 2 * (2 ^ N * 2 ^ N) := by rw [pow_succ, two_mul, pow_add]; ring
  have hyx : |y / x| ≤ 2 ^ N := by rw [abs_div, div_le_iff₀ hxa]; exact hxy
  have hd := abs_rnd_le_of_rep (f := f) rep_pow2_nat hyx
  have hD : Is (fin y zy / fin x zx : FV f) (rnd f (y / x)) :=
    (is_fin y zy).div (is_fin x zx) hx0 (novN _ (hyx.trans (by rw [hp2]; nlinarith)))
  set D := rnd f (y / x) with hDd
  have hDD : |D * D| ≤ 2 ^ (2 * N) := by
    rw [abs_mul, two_mul, pow_add]; exact mul_le_mul hd hd (abs_nonneg _) (by positivity)
  have hDDp : 0 ≤ D * D := mul_self_nonneg D
  have hD2 := hD.mul hD (novN _ (hDD.trans (pow_le_pow_right₀ (by norm_num) (by omega))))
  have hD2u := abs_rnd_le_of_rep (f := f) rep_pow2_nat hDD
  have hD2p : 0 ≤ rnd f (D * D) := rnd_nonneg hDDp
  set D2 := rnd f (D * D) with hD2d
  rw [abs_of_nonneg hD2p] at hD2u
  have hp3 : (2:ℚ) ^ (2 * N + 1) = 2 ^ (2 * N) + 2 ^ (2 * N) := by rw [pow_succ]; ring
  have hp4 : (1:ℚ) ≤ 2 ^ (2 * N) := one_le_pow₀ (by norm_num)
  have hWov := novN (1 + D2) (by rw [abs_of_pos (by linarith), hp3]; linarith)
  have hW : Is (i 1 + (fin y zy / fin x zx : FV f) * (fin y zy / fin x zx)) (rnd f (1 + D2)) := by
    rw [i_one]; exact (is_fin 1 false).add hD2 hWov
  set W := rnd f (1 + D2) with hWd
  have hone : Rep f 1 := by have := rep_pow2_nat (f := f) (n := 0); simpa using this
  have hW1 : 1 ≤ W := le_rnd_of_rep hone (by linarith)
  -- the square root
  obtain ⟨zw, hzw⟩ := hW
  have hvW : Valid (fin W zw : FV f) := by rw [← hzw]; exact valid_add _ _
  obtain ⟨s, hs, hse⟩ := sqrt_acc hf hvW (by
    refine le_trans ?_ hW1
    rw [← pow2_zero]
    exact pow2_le (by rcases f with ⟨⟨⟩, ⟨⟩⟩ <;> decide))
  have hcomp : hypot (fin x zx : FV f) (fin y zy) = .ok (fabs (fin x zx) * fin s false) := by
    unfold hypot hypot_vals_check hypot_compute
    rw [if_neg (by simp [any_nan]), if_neg (by simp [any_inf]),
      if_neg (by rw [limMin_gt_fabs]; exact not_lt.2 hxn),
      if_neg (by rw [limMin_gt_fabs]; exact not_lt.2 hyn), hzw, hs]
    rfl
  rw [hcomp, fabs_fin hx, fin_mul]
  -- real-number error analysis
  have hη : ((pow2 f.emin / 2 : ℚ) : ℝ) ≤ uro f / 1024 := by
    have : pow2 f.emin / 2 ≤ uro f / 1024 := by
      have e1 : uro f / 1024 = pow2 (-(f.prec:ℤ) - 10) := by
        rw [pow2_sub]; unfold uro; norm_num [pow2_eq]
      have e2 := pow2_pos f.emin
      have e3 : pow2 f.emin ≤ pow2 (-(f.prec:ℤ) - 10) :=
        pow2_le (by rcases f with ⟨⟨⟩, ⟨⟩⟩ <;> decide)
      linarith
    exact_mod_cast this
  have hη0 : (0:ℝ) ≤ ((pow2 f.emin / 2 : ℚ) : ℝ) := by
    have : 0 ≤ pow2 f.emin / 2 := by have := pow2_pos f.emin; linarith
    exact_mod_cast this
  have r1 := rnd_err_real (f := f) (y / x)
  have r2 := rnd_err_real (f := f) (D * D)
  have r3 : |(W:ℝ) - (1 + D2)| ≤ uro f * |1 + (D2:ℝ)| := by
    have := rnd_err_rel (f := f) (q := 1 + D2) (by
      rw [abs_of_pos (by linarith)]; linarith [minNormal_lt_one f])
    exact_mod_cast this
  rw [← hDd] at r1
  rw [← hD2d] at r2
  have hxr : (x:ℝ) ≠ 0 := by exact_mod_cast hx0
  set ρ : ℝ := (y:ℝ) / x with hρ
  have hWr := hyp_real (ρ := ρ) (d := D) (d2 := D2) (w := W) hu hu1 hη0 hη
    (by push_cast at r1 ⊢; exact r1) (by push_cast at r2 ⊢; exact r2) r3
  have hρp : 0 < 1 + ρ ^ 2 := by positivity
  have hW0 : (0:ℝ) < W := by have : (1:ℝ) ≤ W := by exact_mod_cast hW1
                             linarith
  have hH : √((x:ℝ) ^ 2 + (y:ℝ) ^ 2) = |(x:ℝ)| * √(1 + ρ ^ 2) := by
    have e : (x:ℝ) ^ 2 + (y:ℝ) ^ 2 = |(x:ℝ)| ^ 2 * (1 + ρ ^ 2) := by
      rw [sq_abs, hρ]; field_simp
    rw [e, Real.sqrt_mul (by positivity), Real.sqrt_sq (abs_nonneg _)]
  set P := √(1 + ρ ^ 2) with hP
  have hP0 : 0 < P := Real.sqrt_pos.2 hρp
  have hP2 : P ^ 2 = 1 + ρ ^ 2 := Real.sq_sqrt hρp.le
  have hsW0 := Real.sqrt_pos.2 hW0
  have hsW2 := Real.sq_sqrt hW0.le
  have hw1 : |√(W:ℝ) / P - 1| ≤ 2.2 * (uro f : ℝ) := by
    have h1 : |(√(W:ℝ) / P) ^ 2 - 1| ≤ 4.2 * (uro f : ℝ) := by
      rw [div_pow, hsW2, hP2]
      have e : (W:ℝ) / (1 + ρ ^ 2) - 1 = ((W:ℝ) - (1 + ρ ^ 2)) / (1 + ρ ^ 2) := by field_simp
      rw [e, abs_div, abs_of_pos hρp, div_le_iff₀ hρp]
      exact hWr
    have := sq_close (by positivity) (by linarith) h1
    linarith
  have hEb : (1.52 * (sqrtLev f.ty : ℝ) + 5) * uro f ≤ 1 / 1000 := by
    have := sqrtLev_u f
    push_cast at this
    nlinarith
  have hE0 : 0 ≤ (1.52 * (sqrtLev f.ty : ℝ) + 5) * uro f := by positivity
  have hs0 : (0:ℝ) < s := by
    have h1 := (abs_le.1 hse).1
    have : 0 < (s:ℝ) / √(W:ℝ) := by linarith
    exact (div_pos_iff_of_pos_right hsW0).1 this
  have hsr : 0 < s := by exact_mod_cast hs0
  have hs1 : (1:ℝ) / 2 ≤ s := by
    have h1 := (abs_le.1 hse).1
    have h2 : (0.9:ℝ) ≤ (s:ℝ) / √(W:ℝ) := by linarith
    rw [le_div_iff₀ hsW0] at h2
    have h3 : 1 ≤ √(W:ℝ) := Real.one_le_sqrt.2 (by exact_mod_cast hW1)
    nlinarith
  by_cases ho : overflows f (rnd f (|x| * s)) = true
  · left
    congr 1
    unfold mk
    have : 0 ≤ |x| * s := by positivity
    simp [ho, this]
  · right
    have ho' : overflows f (rnd f (|x| * s)) = false := by simpa using ho
    have hprod : 0 < |x| * s := by positivity
    have hcl := combine3 hu.le hEb hw1 hse
    have hax : (0:ℝ) < |(x:ℝ)| := abs_pos.2 hxr
    have hP1 : 1 ≤ P := Real.one_le_sqrt.2 (by nlinarith [sq_nonneg ρ])
    have hq : √(W:ℝ) / P * ((s:ℝ) / √(W:ℝ)) = s / P := by field_simp
    rw [hq] at hcl
    have hsP : |(s:ℝ) - P| ≤ ((1.52 * (sqrtLev f.ty : ℝ) + 5) * uro f + 2.21 * uro f) * P := by
      have e : (s:ℝ) - P = (s / P - 1) * P := by field_simp
      rw [e, abs_mul, abs_of_pos hP0]
      gcongr
    refine ⟨rnd f (|x| * s), ?_, ?_⟩
    · congr 1
      have hr : rnd f (|x| * s) ≠ 0 := by
        have hs2 : 1 / 2 ≤ s := by
          have : ((1 / 2 : ℚ) : ℝ) ≤ s := by push_cast; exact hs1
          exact_mod_cast this
        refine rnd_ne_zero_of_rep (r := pow2 (f.emin + f.prec - 2))
          (rep_pow2 (by rcases f with ⟨⟨⟩, ⟨⟩⟩ <;> decide)) (pow2_pos _) ?_
        have e : pow2 (f.emin + f.prec - 2) = minNormal f / 2 := by
          unfold minNormal
          rw [show f.emin + (f.prec:ℤ) - 2 = f.emin + f.prec - 1 - 1 by ring, pow2_sub _ 1]
          norm_num [pow2_eq]
        rw [e, abs_of_pos hprod]
        nlinarith
      unfold mk
      simp [ho', hr]
    · have h2 : (minNormal f : ℝ) ≤ |(x:ℝ)| := by exact_mod_cast hxn
      have h3 : ((pow2 f.emin : ℚ) : ℝ) / 2 = uro f * minNormal f := by
        have : pow2 f.emin / 2 = uro f * minNormal f := by
          unfold uro minNormal
          rw [← pow2_add, show -(f.prec:ℤ) + (f.emin + f.prec - 1) = f.emin - 1 by ring, pow2_sub]
          norm_num [pow2_eq]
        exact_mod_cast this
      have h1 := rnd_err_real (f := f) (|x| * s)
      rw [h3] at h1
      push_cast at h1
      rw [abs_mul, abs_abs, abs_of_pos hs0] at h1
      rw [hH]
      refine (hyp_final hu hax hP1 (by linarith) h2 hsP h1).trans (le_of_eq ?_)
      ring

/-- C29: `float`.  For normal arguments with `|y| ≤ 2^62 |x|` the result is `+inf` or within
`22 · 2^-24` (relatively) of the Euclidean norm. -/
theorem C29_float {x y : ℚ} {zx zy : Bool} (hx : Valid (fin x zx : FV binary32))
    (hxn : minNormal binary32 ≤ |x|) (hyn : minNormal binary32 ≤ |y|) (hxy : |y| ≤ 2 ^ 62 * |x|) :
    hypot (fin x zx : FV binary32) (fin y zy) = .ok (inf false) ∨
    ∃ r : ℚ, hypot (fin x zx : FV binary32) (fin y zy) = .ok (fin r false) ∧
      |(r:ℝ) - √((x:ℝ) ^ 2 + (y:ℝ) ^ 2)| ≤ 22 / 2 ^ 24 * √((x:ℝ) ^ 2 + (y:ℝ) ^ 2) := by
  refine (hypot_acc (f := binary32) rfl (zx := zx) (zy := zy) hx hxn hyn hxy).imp_right ?_
  rintro ⟨r, hr, h⟩
  refine ⟨r, hr, h.trans ?_⟩
  rw [uro_eq]
  gcongr
  norm_num [sqrtLev, binary32, Fmt.prec, FTy.prec]

/-- C29: `double`.  For normal arguments with `|y| ≤ 2^510 |x|` the result is `+inf` or within
`75 · 2^-53` (relatively) of the Euclidean norm. -/
theorem C29_double {x y : ℚ} {zx zy : Bool} (hx : Valid (fin x zx : FV binary64))
    (hxn : minNormal binary64 ≤ |x|) (hyn : minNormal binary64 ≤ |y|) (hxy : |y| ≤ 2 ^ 510 * |x|) :
    hypot (fin x zx : FV binary64) (fin y zy) = .ok (inf false) ∨
    ∃ r : ℚ, hypot (fin x zx : FV binary64) (fin y zy) = .ok (fin r false) ∧
      |(r:ℝ) - √((x:ℝ) ^ 2 + (y:ℝ) ^ 2)| ≤ 75 / 2 ^ 53 * √((x:ℝ) ^ 2 + (y:ℝ) ^ 2) := by
  refine (hypot_acc (f := binary64) rfl (zx := zx) (zy := zy) hx hxn hyn hxy).imp_right ?_
  rintro ⟨r, hr, h⟩
  refine ⟨r, hr, h.trans ?_⟩
  rw [uro_eq]
  gcongr
  norm_num [sqrtLev, binary64, Fmt.prec, FTy.prec]

/-- C29: `long double`.  For normal arguments with `|y| ≤ 2^8190 |x|` the result is `+inf` or within
`973 · 2^-64` (relatively) of the Euclidean norm. -/
theorem C29_long_double {x y : ℚ} {zx zy : Bool} (hx : Valid (fin x zx : FV x87))
    (hxn : minNormal x87 ≤ |x|) (hyn : minNormal x87 ≤ |y|) (hxy : |y| ≤ 2 ^ 8190 * |x|) :
    hypot (fin x zx : FV x87) (fin y zy) = .ok (inf false) ∨
    ∃ r : ℚ, hypot (fin x zx : FV x87) (fin y zy) = .ok (fin r false) ∧
      |(r:ℝ) - √((x:ℝ) ^ 2 + (y:ℝ) ^ 2)| ≤ 973 / 2 ^ 64 * √((x:ℝ) ^ 2 + (y:ℝ) ^ 2) := by
  refine (hypot_acc (f := x87) rfl (zx := zx) (zy := zy) hx hxn hyn hxy).imp_right ?_
  rintro ⟨r, hr, h⟩
  refine ⟨r, hr, h.trans ?_⟩
  rw [uro_eq]
  gcongr
  norm_num [sqrtLev, x87, Fmt.prec, FTy.prec]

/-- C29: no undefined behaviour for any pair of values of the type. -/
theorem C29_total (hf : f.exact = false) (x y : FV f) : ∃ r, hypot x y = .ok r := by
  unfold hypot hypot_vals_check
  split
  · exact ⟨_, rfl⟩
  split
  · exact ⟨_, rfl⟩
  split
  · exact ⟨_, rfl⟩
  split
  · exact ⟨_, rfl⟩
  unfold hypot_compute
  obtain ⟨⟨r, hr⟩, -⟩ := C25_total hf _ (valid_add (i 1) ((y / x) * (y / x)))
  rw [hr]
  exact ⟨_, rfl⟩

end Gcem.Props
