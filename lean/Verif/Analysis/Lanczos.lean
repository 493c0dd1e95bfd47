import Mathlib.Analysis.SpecialFunctions.Gamma.BohrMollerup
import Mathlib.Analysis.SpecialFunctions.Stirling
import Mathlib.Analysis.SpecialFunctions.Complex.LogBounds
import Mathlib.Analysis.Convex.Deriv
import Mathlib.Tactic.Linarith
import Mathlib.Tactic.FieldSimp
import Mathlib.Tactic.Positivity

/-!
# The Lanczos approximation of the logarithm of the gamma function

For the coefficients stored in lgamma.hpp the difference between the real Lanczos formula and `log Γ` is
bounded on the whole half line.  With `d` the difference, `d (z+1) - d z` has a rational second
derivative; comparing it with an explicit `G (z+1) - G z` (all coefficients of the numerator of the
difference have one sign, checked by kernel evaluation on integer polynomials) makes
`±d + G` monotone along `z, z+1, …`, and Stirling's formula gives the limit.
-/

namespace Gcem
namespace Lan

/-! ## Integer polynomials as coefficient lists -/

/-- value of the polynomial with the given coefficients (constant term first) -/
def ev : List ℤ → ℝ → ℝ
  | [], _ => 0
  | a :: p, x => a + x * ev p x

def padd : List ℤ → List ℤ → List ℤ
  | [], q => q
  | p, [] => p
  | a :: p, b :: q => (a + b) :: padd p q

def pscale (c : ℤ) (p : List ℤ) : List ℤ := p.map (c * ·)

def pmul : List ℤ → List ℤ → List ℤ
  | [], _ => []
  | a :: p, q => padd (pscale a q) (0 :: pmul p q)

/-- `p (x + 1)` -/
def pshift : List ℤ → List ℤ
  | [] => []
  | a :: p => padd [a] (pmul [1, 1] (pshift p))

def pder : List ℤ → List ℤ
  | [] => []
  | _ :: p => padd p (0 :: pder p)

def ppow (p : List ℤ) : ℕ → List ℤ
  | 0 => [1]
  | n + 1 => pmul p (ppow p n)

theorem ev_padd (p q : List ℤ) (x : ℝ) : ev (padd p q) x = ev p x + ev q x := by
  induction p generalizing q with
  | nil => simp [padd, ev]
  | cons a p ih =>
    cases q with
    | nil => simp [padd, ev]
    | cons b q => simp only [padd, ev, ih]; push_cast; ring

theorem ev_pscale (c : ℤ) (p : List ℤ) (x : ℝ) : ev (pscale c p) x = c * ev p x := by
  induction p with
  | nil => simp [pscale, ev]
  | cons a p ih => simp only [pscale, List.map_cons, ev] at ih ⊢; rw [ih]; push_cast; ring

theorem ev_pmul (p q : List ℤ) (x : ℝ) : ev (pmul p q) x = ev p x * ev q x := by
  induction p with
  | nil => simp [pmul, ev]
  | cons a p ih => simp only [pmul, ev_padd, ev_pscale, ev, ih]; push_cast; ring

theorem ev_pshift (p : List ℤ) (x : ℝ) : ev (pshift p) x = ev p (x + 1) := by
  induction p with
  | nil => simp [pshift, ev]
  | cons a p ih => simp only [pshift, ev_padd, ev_pmul, ev, ih]; push_cast; ring

theorem ev_ppow (p : List ℤ) (n : ℕ) (x : ℝ) : ev (ppow p n) x = ev p x ^ n := by
  induction n with
  | zero => simp [ppow, ev]
  | succ n ih => rw [ppow, ev_pmul, ih, pow_succ']

theorem hasDeriv_ev (p : List ℤ) (x : ℝ) : HasDerivAt (ev p) (ev (pder p) x) x := by
  induction p with
  | nil => exact hasDerivAt_const x (0 : ℝ)
  | cons a p ih =>
    have := ((hasDerivAt_id x).mul ih).const_add (a : ℝ)
    refine HasDerivAt.congr_deriv (f := fun y => (a : ℝ) + id y * ev p y) this ?_
    simp only [pder, ev_padd, ev, id]; push_cast; ring

theorem ev_nonneg {p : List ℤ} (h : p.all (0 ≤ ·) = true) {x : ℝ} (hx : 0 ≤ x) : 0 ≤ ev p x := by
  induction p with
  | nil => exact le_rfl
  | cons a p ih =>
    simp only [List.all_cons, Bool.and_eq_true, decide_eq_true_eq] at h
    have h1 : (0:ℝ) ≤ a := by exact_mod_cast h.1
    have := ih h.2
    simp only [ev]; positivity

theorem ev_zero {p : List ℤ} (h : p.all (· = 0) = true) (x : ℝ) : ev p x = 0 := by
  induction p with
  | nil => rfl
  | cons a p ih =>
    simp only [List.all_cons, Bool.and_eq_true, decide_eq_true_eq] at h
    simp [ev, ih h.2, h.1]

theorem ev_pos {a : ℤ} {p : List ℤ} (ha : 0 < a) (h : p.all (0 ≤ ·) = true) {x : ℝ} (hx : 0 ≤ x) :
    0 < ev (a :: p) x := by
  have := ev_nonneg h hx
  have h1 : (0:ℝ) < a := by exact_mod_cast ha
  simp only [ev]; positivity

/-! ## The coefficients (lgamma.hpp:55-64), scaled by `10^25` -/

/-- lgamma.hpp:55-64: the numerators over `x+1, …, x+14`, times `10^25` -/
def coef : List ℤ :=
  [571562356658629235170000000, -595979603554754912480000000, 141360979747417471740000000,
   -4919138160976201997800000, 339946499848118886990, 465236289270485756650, -983744753048795646770,
   1580887032249124888400, -2102644417241048831900, 2174396181152126432000, -1643181065367638902200,
   844182239838527432930, -261908384015814086700, 36899182659531622704]

/-- lgamma.hpp:55: the constant term, times `10^25` -/
def coef0 : ℤ := 9999999999999970918200000

/-- numerator and denominator of `c₀ + Σ cₖ / (z + k)`, adding the terms of the list from `k` on -/
def ratio : List ℤ → ℤ → List ℤ × List ℤ → List ℤ × List ℤ
  | [], _, a => a
  | c :: l, k, (n, d) => ratio l (k + 1) (padd (pmul n [k, 1]) (pscale c d), pmul d [k, 1])

/-- `c₀ + Σ cₖ / (z + k)` from `k` on, in the real numbers -/
noncomputable def rsum : List ℤ → ℤ → ℝ → ℝ
  | [], _, _ => 0
  | c :: l, k, z => c / (z + k) + rsum l (k + 1) z

theorem ratio_ev (l : List ℤ) (k : ℤ) (hk : 0 ≤ k) (n d : List ℤ) (z : ℝ) (hz : 0 < z) (hd : ev d z ≠ 0) :
    ev (ratio l k (n, d)).2 z ≠ 0 ∧
      ev (ratio l k (n, d)).1 z / ev (ratio l k (n, d)).2 z = ev n z / ev d z + rsum l k z := by
  induction l generalizing k n d with
  | nil => exact ⟨hd, by simp [ratio, rsum]⟩
  | cons c l ih =>
    have hk' : (0:ℝ) ≤ k := by exact_mod_cast hk
    have h1 : z + k ≠ 0 := by positivity
    have h2 : ev [k, 1] z = z + k := by simp [ev]; ring
    have h3 : ev (pmul d [k, 1]) z ≠ 0 := by rw [ev_pmul, h2]; exact mul_ne_zero hd h1
    obtain ⟨e1, e2⟩ := ih (k + 1) (by omega) (padd (pmul n [k, 1]) (pscale c d)) _ h3
    refine ⟨e1, e2.trans ?_⟩
    rw [rsum, ev_padd, ev_pmul, ev_pmul, ev_pscale, h2]
    field_simp
    ring

/-- numerator of the Lanczos sum -/
def PP : List ℤ := (ratio coef 0 ([coef0], [1])).1
/-- denominator of the Lanczos sum: `z (z+1) ⋯ (z+13)` -/
def QQ : List ℤ := (ratio coef 0 ([coef0], [1])).2

/-- the Lanczos sum of lgamma.hpp:54-65 at `z = x + 1`, over the real numbers -/
noncomputable def lanA (z : ℝ) : ℝ := (coef0 + rsum coef 0 z) / 10 ^ 25

theorem PP_pos {z : ℝ} (hz : 0 ≤ z) : 0 < ev PP z := by
  have h : PP = PP.head! :: PP.tail := by decide +kernel
  rw [h]
  exact ev_pos (by decide +kernel) (by decide +kernel) hz

theorem lanA_eq {z : ℝ} (hz : 0 < z) : ev QQ z ≠ 0 ∧ lanA z = ev PP z / ev QQ z / 10 ^ 25 := by
  obtain ⟨h1, h2⟩ := ratio_ev coef 0 le_rfl [coef0] [1] z hz (by simp [ev])
  refine ⟨h1, ?_⟩
  rw [lanA, PP, QQ, h2]
  simp [ev]

theorem QQ_shift (z : ℝ) : z * ev QQ (z + 1) = (z + 14) * ev QQ z := by
  have h : (padd (pmul [0, 1] (pshift QQ)) (pscale (-1) (pmul [14, 1] QQ))).all (· = 0) = true := by
    decide +kernel
  have := ev_zero h z
  simp only [ev_padd, ev_pscale, ev_pmul, ev_pshift, ev] at this
  push_cast at this
  linarith

theorem QQ_pos {z : ℝ} (hz : 0 < z) : 0 < ev QQ z := by
  have h : QQ = 0 :: QQ.tail := by decide +kernel
  have h1 : 0 ≤ ev QQ z := by
    rw [h]; exact ev_nonneg (by decide +kernel) hz.le
  exact lt_of_le_of_ne h1 (lanA_eq hz).1.symm

/-! ## Second derivatives -/

/-- `G z = 7·10⁻¹³/(z+80) + 3·10⁻¹⁵/(z+1/2)` -/
noncomputable def GG (z : ℝ) : ℝ := 7 / 10 ^ 13 / (z + 80) + 3 / 10 ^ 15 / (z + 1 / 2)

noncomputable def VV (z : ℝ) : ℝ := (z - 1 / 2) * Real.log (z + 543 / 128) - (z + 543 / 128) + Real.log (ev PP z)

noncomputable def V1 (z : ℝ) : ℝ :=
  Real.log (z + 543 / 128) + (z - 1 / 2) / (z + 543 / 128) - 1 + ev (pder PP) z / ev PP z

noncomputable def V2 (z : ℝ) : ℝ :=
  1 / (z + 543 / 128) + (607 / 128) / (z + 543 / 128) ^ 2 +
    (ev (pder (pder PP)) z * ev PP z - ev (pder PP) z * ev (pder PP) z) / ev PP z ^ 2

theorem hasDeriv_VV {z : ℝ} (hz : 0 < z) : HasDerivAt VV (V1 z) z := by
  have hb : z + 543 / 128 ≠ 0 := by positivity
  have hp := (PP_pos hz.le).ne'
  have a := (hasDerivAt_id z).add_const (543 / 128 : ℝ)
  have b := a.log (by simpa using hb)
  have c := ((hasDerivAt_id z).sub_const (1 / 2 : ℝ)).mul b
  have d := (hasDeriv_ev PP z).log hp
  have e := (c.sub a).add d
  refine e.congr_deriv ?_
  simp only [id, V1]
  ring

theorem hasDeriv_V1 {z : ℝ} (hz : 0 < z) : HasDerivAt V1 (V2 z) z := by
  have hb : z + 543 / 128 ≠ 0 := by positivity
  have hp := (PP_pos hz.le).ne'
  have a := (hasDerivAt_id z).add_const (543 / 128 : ℝ)
  have b := a.log (by simpa using hb)
  have c := ((hasDerivAt_id z).sub_const (1 / 2 : ℝ)).div a (by simpa using hb)
  have d := (hasDeriv_ev (pder PP) z).div (hasDeriv_ev PP z) hp
  have e := ((b.add c).sub_const 1).add d
  refine e.congr_deriv ?_
  simp only [id, V2]
  have : (1 * (z + 543 / 128) - (z - 1 / 2) * 1) / (z + 543 / 128) ^ 2 = (607 / 128) / (z + 543 / 128) ^ 2 := by
    congr 1; ring
  rw [this]

noncomputable def G1 (z : ℝ) : ℝ := -(7 / 10 ^ 13 / (z + 80) ^ 2 + 3 / 10 ^ 15 / (z + 1 / 2) ^ 2)
noncomputable def G2 (z : ℝ) : ℝ := 14 / 10 ^ 13 / (z + 80) ^ 3 + 6 / 10 ^ 15 / (z + 1 / 2) ^ 3

theorem hasDeriv_inv {a c z : ℝ} (h : z + a ≠ 0) : HasDerivAt (fun z => c / (z + a)) (-(c / (z + a) ^ 2)) z := by
  have := (hasDerivAt_const z c).div ((hasDerivAt_id z).add_const a) (by simpa using h)
  refine this.congr_deriv ?_
  simp only [id]; ring

theorem hasDeriv_inv2 {a c z : ℝ} (h : z + a ≠ 0) :
    HasDerivAt (fun z => c / (z + a) ^ 2) (-(2 * c / (z + a) ^ 3)) z := by
  have := (hasDerivAt_const z c).div (((hasDerivAt_id z).add_const a).pow 2) (by simpa using h)
  refine this.congr_deriv ?_
  simp only [id, Pi.pow_apply]
  push_cast
  field_simp
  ring

theorem hasDeriv_GG {z : ℝ} (hz : 0 < z) : HasDerivAt GG (G1 z) z := by
  refine ((hasDeriv_inv (a := 80) (by positivity)).add (hasDeriv_inv (a := 1 / 2) (by positivity))).congr_deriv ?_
  rw [G1]; ring

theorem hasDeriv_G1 {z : ℝ} (hz : 0 < z) : HasDerivAt G1 (G2 z) z := by
  refine ((hasDeriv_inv2 (a := 80) (by positivity)).add (hasDeriv_inv2 (a := 1 / 2) (by positivity))).neg.congr_deriv ?_
  rw [G2]; ring

/-- numerator of `σ V2 + G2` -/
def nn (s : ℤ) : List ℤ :=
  let b := [543, 128]
  let b2 := ppow b 2
  let P2 := ppow PP 2
  let A := ppow [80, 1] 3
  let B := ppow [1, 2] 3
  let W := padd (pmul (padd (pscale 128 b) [128 * 607]) P2)
    (pmul b2 (padd (pmul (pder (pder PP)) PP) (pscale (-1) (pmul (pder PP) (pder PP)))))
  padd (pscale (s * 10 ^ 15) (pmul W (pmul A B)))
    (pmul (pmul b2 P2) (padd (pscale 1400 B) (pscale 48 A)))

/-- denominator of `σ V2 + G2` -/
def mm : List ℤ :=
  pscale (10 ^ 15) (pmul (pmul (ppow [543, 128] 2) (ppow PP 2)) (pmul (ppow [80, 1] 3) (ppow [1, 2] 3)))

theorem mm_pos {z : ℝ} (hz : 0 < z) : 0 < ev mm z := by
  have hp := PP_pos hz.le
  rw [mm, ev_pscale, ev_pmul, ev_pmul, ev_pmul, ev_ppow, ev_ppow, ev_ppow, ev_ppow]
  simp only [ev]
  push_cast
  simp only [mul_zero, add_zero]
  positivity

theorem nn_mm (s : ℤ) {z : ℝ} (hz : 0 < z) : s * V2 z + G2 z = ev (nn s) z / ev mm z := by
  have hp := (PP_pos hz.le).ne'
  rw [eq_div_iff (mm_pos hz).ne', mm, nn, V2, G2]
  simp only [ev_pscale, ev_pmul, ev_ppow, ev_padd, ev]
  generalize ev PP z = p at *
  generalize ev (pder PP) z = p1
  generalize ev (pder (pder PP)) z = p2
  push_cast
  have h1 : z + 543 / 128 ≠ 0 := by positivity
  have h2 : z + 80 ≠ 0 := by positivity
  have h3 : z + 1 / 2 ≠ 0 := by positivity
  have e1 : (543 : ℝ) + z * (128 + z * 0) = 128 * (z + 543 / 128) := by ring
  have e2 : (80 : ℝ) + z * (1 + z * 0) = z + 80 := by ring
  have e3 : (1 : ℝ) + z * (2 + z * 0) = 2 * (z + 1 / 2) := by ring
  rw [e1, e2, e3]
  generalize z + 543 / 128 = b at *
  generalize z + 80 = a at *
  generalize z + 1 / 2 = c at *
  field_simp
  ring

/-- the numerator of `-(K''(z+1) - K''(z) + σ/(z+14)²)` with `K = σ V + G` -/
def neg2 (s : ℤ) : List ℤ :=
  pscale (-1) (padd (pmul (padd (pmul (pshift (nn s)) mm) (pscale (-1) (pmul (nn s) (pshift mm)))) (ppow [14, 1] 2))
    (pscale s (pmul mm (pshift mm))))

theorem neg2_pos : (neg2 1).all (0 ≤ ·) = true := by decide +kernel
theorem neg2_neg : (neg2 (-1)).all (0 ≤ ·) = true := by decide +kernel

theorem second_nonpos (s : ℤ) (hs : s = 1 ∨ s = -1) {z : ℝ} (hz : 0 < z) :
    (s * V2 (z + 1) + G2 (z + 1)) - (s * V2 z + G2 z) + s / (z + 14) ^ 2 ≤ 0 := by
  have h : (neg2 s).all (0 ≤ ·) = true := by
    rcases hs with rfl | rfl
    · exact neg2_pos
    · exact neg2_neg
  have := ev_nonneg h hz.le
  rw [nn_mm s hz, nn_mm s (by linarith : 0 < z + 1)]
  have m0 := mm_pos hz
  have m1 := mm_pos (show 0 < z + 1 by linarith)
  have h14 : (z + 14) ≠ 0 := by positivity
  rw [neg2] at this
  simp only [ev_pscale, ev_pmul, ev_ppow, ev_padd, ev_pshift, ev] at this
  push_cast at this
  have e : (14 : ℝ) + z * (1 + z * 0) = z + 14 := by ring
  rw [e] at this
  have key : ev (nn s) (z + 1) / ev mm (z + 1) - ev (nn s) z / ev mm z + s / (z + 14) ^ 2 =
      ((ev (nn s) (z + 1) * ev mm z + -1 * (ev (nn s) z * ev mm (z + 1))) * (z + 14) ^ 2 +
        s * (ev mm z * ev mm (z + 1))) / (ev mm z * ev mm (z + 1) * (z + 14) ^ 2) := by
    field_simp
    ring
  rw [key]
  exact div_nonpos_of_nonpos_of_nonneg (by linarith) (by positivity)

/-! ## The difference to `log Γ` along `z, z + 1, …` -/

open Filter Topology

/-- the real Lanczos formula of lgamma.hpp:70-92 at `z = x + 1` -/
noncomputable def lanL (z : ℝ) : ℝ :=
  (z - 1 / 2) * Real.log (z + 543 / 128) - (z + 543 / 128) + Real.log √(2 * Real.pi) + Real.log (lanA z)

/-- difference between the Lanczos formula and `log Γ` -/
noncomputable def dd (z : ℝ) : ℝ := lanL z - Real.log (Real.Gamma z)

theorem lanA_pos {z : ℝ} (hz : 0 < z) : 0 < lanA z := by
  have := PP_pos hz.le
  have := QQ_pos hz
  rw [(lanA_eq hz).2]; positivity

theorem lanL_eq {z : ℝ} (hz : 0 < z) :
    lanL z = VV z + Real.log √(2 * Real.pi) - Real.log (ev QQ z) - Real.log (10 ^ 25) := by
  have h1 := (PP_pos hz.le).ne'
  have h2 := (QQ_pos hz).ne'
  rw [lanL, (lanA_eq hz).2, Real.log_div (div_ne_zero h1 h2) (by positivity), Real.log_div h1 h2, VV]
  ring

theorem logGamma_step {y : ℝ} (hy : 0 < y) :
    Real.log (Real.Gamma (y + 1)) = Real.log (Real.Gamma y) + Real.log y := by
  rw [Real.Gamma_add_one hy.ne', Real.log_mul hy.ne' (Real.Gamma_pos_of_pos hy).ne', add_comm]

theorem dd_step {z : ℝ} (hz : 0 < z) : dd (z + 1) - dd z = VV (z + 1) - VV z - Real.log (z + 14) := by
  have h1 : 0 < z + 1 := by linarith
  have hq := QQ_pos hz
  have hq1 := QQ_pos h1
  have e := congrArg Real.log (QQ_shift z)
  rw [Real.log_mul hz.ne' hq1.ne', Real.log_mul (by positivity) hq.ne'] at e
  rw [dd, dd, lanL_eq hz, lanL_eq h1, logGamma_step hz]
  linarith

theorem rsum_lim (l : List ℤ) (k : ℤ) : Tendsto (rsum l k) atTop (𝓝 0) := by
  induction l generalizing k with
  | nil => exact tendsto_const_nhds
  | cons c l ih =>
    have h : Tendsto (fun z : ℝ => (c : ℝ) / (z + k)) atTop (𝓝 0) :=
      tendsto_const_nhds.div_atTop (tendsto_atTop_add_const_right _ _ tendsto_id)
    have h2 := h.add (ih (k + 1))
    rw [add_zero] at h2
    exact h2

/-- the limit of the Lanczos sum -/
noncomputable def lanC : ℝ := 99999999999999709182 / 10 ^ 20

theorem lanA_lim : Tendsto lanA atTop (𝓝 lanC) := by
  have h := ((rsum_lim coef 0).const_add (coef0 : ℝ)).div_const ((10 : ℝ) ^ 25)
  have e : ((coef0 : ℝ) + 0) / 10 ^ 25 = lanC := by rw [coef0, lanC]; push_cast; norm_num
  rw [e] at h
  exact h

theorem dd_expand {x : ℝ} (hx : 0 < x) {n : ℕ} (hn : 0 < n) :
    dd (x + (n + 1 : ℕ)) = n * Real.log (1 + (x + 1 + 543 / 128) / n)
      + (x + 1 / 2) * Real.log (1 + (x + 1 + 543 / 128) / n) - (x + 1 + 543 / 128)
      + Real.log √(2 * Real.pi) + Real.log (lanA (x + (n + 1 : ℕ)))
      - (Real.log (Real.Gamma x) - Real.BohrMollerup.logGammaSeq x n) - Real.log (Stirling.stirlingSeq n)
      - 1 / 2 * Real.log 2 := by
  have hn' : (0:ℝ) < n := by exact_mod_cast hn
  have hg := Real.BohrMollerup.f_add_nat_eq (f := Real.log ∘ Real.Gamma) (x := x) (fun {y} hy => logGamma_step hy)
    hx (n + 1)
  simp only [Function.comp_apply] at hg
  have hs := Stirling.log_stirlingSeq_formula n
  rw [Real.log_mul (by norm_num) hn'.ne', Real.log_div hn'.ne' (Real.exp_pos 1).ne', Real.log_exp] at hs
  have hl : Real.log (x + (n + 1 : ℕ) + 543 / 128) = Real.log n + Real.log (1 + (x + 1 + 543 / 128) / n) := by
    rw [← Real.log_mul hn'.ne' (by positivity)]
    congr 1
    push_cast
    field_simp
    ring
  rw [dd, lanL, hl, hg, hs, Real.BohrMollerup.logGammaSeq]
  push_cast
  ring

theorem dd_lim {x : ℝ} (hx : 0 < x) : Tendsto (fun n : ℕ => dd (x + n)) atTop (𝓝 (Real.log lanC)) := by
  rw [← tendsto_add_atTop_iff_nat 1]
  have ht : Tendsto (fun n : ℕ => (n : ℝ)) atTop atTop := tendsto_natCast_atTop_atTop
  have a1 := (Real.tendsto_mul_log_one_add_div_atTop (x + 1 + 543 / 128)).comp ht
  have a2 : Tendsto (fun n : ℕ => (x + 1 / 2) * Real.log (1 + (x + 1 + 543 / 128) / (n : ℝ))) atTop (𝓝 0) := by
    have : Tendsto (fun n : ℕ => 1 + (x + 1 + 543 / 128) / (n : ℝ)) atTop (𝓝 (1 + 0)) :=
      (tendsto_const_nhds.div_atTop ht).const_add _
    have := ((this.log (by norm_num)).const_mul (x + 1 / 2))
    simpa using this
  have a3 : Tendsto (fun n : ℕ => Real.log (lanA (x + (n + 1 : ℕ)))) atTop (𝓝 (Real.log lanC)) := by
    have h1 : Tendsto (fun n : ℕ => x + ((n + 1 : ℕ) : ℝ)) atTop atTop :=
      tendsto_atTop_add_const_left _ _ ((tendsto_natCast_atTop_atTop).comp (tendsto_add_atTop_nat 1))
    exact (lanA_lim.comp h1).log (by rw [lanC]; norm_num)
  have a4 := (tendsto_const_nhds (x := Real.log (Real.Gamma x)) (f := atTop (α := ℕ))).sub
    (Real.BohrMollerup.tendsto_log_gamma hx)
  have a5 := (Stirling.tendsto_stirlingSeq_sqrt_pi).log (by positivity)
  have h := (((((a1.add a2).sub_const (x + 1 + 543 / 128)).add_const (Real.log √(2 * Real.pi))).add a3).sub a4).sub a5
  have h := h.sub_const (1 / 2 * Real.log 2)
  have e : x + 1 + 543 / 128 + 0 - (x + 1 + 543 / 128) + Real.log √(2 * Real.pi) + Real.log lanC -
      (Real.log (Real.Gamma x) - Real.log (Real.Gamma x)) - Real.log √Real.pi - 1 / 2 * Real.log 2 = Real.log lanC := by
    have : Real.log √(2 * Real.pi) = 1 / 2 * Real.log 2 + Real.log √Real.pi := by
      rw [Real.sqrt_mul (by norm_num), Real.log_mul (by positivity) (by positivity), Real.log_sqrt (by norm_num)]
      ring
    rw [this]; ring
  rw [e] at h
  refine h.congr' ?_
  filter_upwards [eventually_gt_atTop 0] with n hn
  rw [dd_expand hx hn]
  rfl

theorem GG_lim (x : ℝ) : Tendsto (fun n : ℕ => GG (x + n)) atTop (𝓝 0) := by
  have ht : Tendsto (fun n : ℕ => x + (n : ℝ)) atTop atTop :=
    tendsto_atTop_add_const_left _ _ tendsto_natCast_atTop_atTop
  have h1 : Tendsto (fun z : ℝ => (7 / 10 ^ 13 : ℝ) / (z + 80)) atTop (𝓝 0) :=
    tendsto_const_nhds.div_atTop (tendsto_atTop_add_const_right _ _ tendsto_id)
  have h2 : Tendsto (fun z : ℝ => (3 / 10 ^ 15 : ℝ) / (z + 1 / 2)) atTop (𝓝 0) :=
    tendsto_const_nhds.div_atTop (tendsto_atTop_add_const_right _ _ tendsto_id)
  have h := (h1.add h2).comp ht
  rw [add_zero] at h
  exact h

/-- the difference `K (z+1) - K z - σ log (z+14)` with `K = σ V + G` -/
noncomputable def phi (s z : ℝ) : ℝ :=
  (s * VV (z + 1) + GG (z + 1)) - (s * VV z + GG z) - s * Real.log (z + 14)

theorem phi_concave (s : ℤ) (hs : s = 1 ∨ s = -1) : ConcaveOn ℝ (Set.Ioi 0) (phi s) := by
  have d1 : ∀ x ∈ Set.Ioi (0:ℝ), HasDerivAt (phi s)
      ((s * V1 (x + 1) + G1 (x + 1)) - (s * V1 x + G1 x) - s * (1 / (x + 14))) x := by
    intro x hx
    have hx : 0 < x := hx
    have a := ((hasDeriv_VV (show 0 < x + 1 by linarith)).comp_add_const x 1).const_mul (s : ℝ)
    have b := (hasDeriv_GG (show 0 < x + 1 by linarith)).comp_add_const x 1
    have c := ((hasDeriv_VV hx).const_mul (s : ℝ)).add (hasDeriv_GG hx)
    have d := (((hasDerivAt_id x).add_const (14 : ℝ)).log (by simp only [id]; positivity)).const_mul (s : ℝ)
    exact ((a.add b).sub c).sub d
  have d2 : ∀ x ∈ Set.Ioi (0:ℝ), HasDerivAt
      (fun x => (s * V1 (x + 1) + G1 (x + 1)) - (s * V1 x + G1 x) - s * (1 / (x + 14)))
      ((s * V2 (x + 1) + G2 (x + 1)) - (s * V2 x + G2 x) + s / (x + 14) ^ 2) x := by
    intro x hx
    have hx : 0 < x := hx
    have a := ((hasDeriv_V1 (show 0 < x + 1 by linarith)).comp_add_const x 1).const_mul (s : ℝ)
    have b := (hasDeriv_G1 (show 0 < x + 1 by linarith)).comp_add_const x 1
    have c := ((hasDeriv_V1 hx).const_mul (s : ℝ)).add (hasDeriv_G1 hx)
    have d := (hasDeriv_inv (a := 14) (c := 1) (z := x) (by positivity)).const_mul (s : ℝ)
    refine (((a.add b).sub c).sub d).congr_deriv ?_
    ring
  refine concaveOn_of_hasDerivWithinAt2_nonpos (convex_Ioi 0)
    (f' := fun x => (s * V1 (x + 1) + G1 (x + 1)) - (s * V1 x + G1 x) - s * (1 / (x + 14)))
    (f'' := fun x => (s * V2 (x + 1) + G2 (x + 1)) - (s * V2 x + G2 x) + s / (x + 14) ^ 2)
    (fun x hx => (d1 x hx).continuousAt.continuousWithinAt) ?_ ?_ ?_
  · rw [interior_Ioi]; intro x hx; exact (d1 x hx).hasDerivWithinAt
  · rw [interior_Ioi]; intro x hx; exact (d2 x hx).hasDerivWithinAt
  · rw [interior_Ioi]; intro x hx; exact second_nonpos s hs hx

theorem phi_eq (s : ℝ) {z : ℝ} (hz : 0 < z) :
    phi s z = (s * dd (z + 1) + GG (z + 1)) - (s * dd z + GG z) := by
  have := dd_step hz
  rw [phi]
  linear_combination (-s) * this

/-- a concave function whose values along `z, z+1, …` tend to `0` is nonpositive -/
theorem concave_nonpos {g : ℝ → ℝ} (hg : ConcaveOn ℝ (Set.Ioi 0) g)
    (hl : ∀ x, 0 < x → Tendsto (fun n : ℕ => g (x + n)) atTop (𝓝 0)) {z : ℝ} (hz : 0 < z) : g z ≤ 0 := by
  have step : ∀ x, 0 < x → g x ≤ g (x + 1) := by
    intro x hx
    by_contra hc
    push Not at hc
    -- `g (x + n) ≤ g x - n (g x - g (x+1))`
    have hb : ∀ n : ℕ, g (x + (n + 1 : ℕ)) ≤ g x - (n + 1) * (g x - g (x + 1)) := by
      intro n
      have hn : (0:ℝ) ≤ n := n.cast_nonneg
      have hy : x + ((n + 1 : ℕ) : ℝ) ∈ Set.Ioi (0:ℝ) := by
        push_cast; exact (by positivity : 0 < x + ((n:ℝ) + 1))
      have h := hg.2 (show x ∈ Set.Ioi (0:ℝ) from hx) hy (show (0:ℝ) ≤ n / (n + 1) by positivity)
        (show (0:ℝ) ≤ 1 / (n + 1) by positivity) (by field_simp)
      simp only [smul_eq_mul] at h
      have e : (n:ℝ) / (n + 1) * x + 1 / (n + 1) * (x + (n + 1 : ℕ)) = x + 1 := by push_cast; field_simp; ring
      rw [e] at h
      have h2 := mul_le_mul_of_nonneg_left h (show (0:ℝ) ≤ n + 1 by positivity)
      have e2 : ((n:ℝ) + 1) * (n / (n + 1) * g x + 1 / (n + 1) * g (x + (n + 1 : ℕ))) = n * g x + g (x + (n + 1 : ℕ)) := by
        field_simp
      rw [e2] at h2
      linarith
    have h0 := (hl x hx).comp (tendsto_add_atTop_nat 1)
    have h1 : Tendsto (fun n : ℕ => g x - (n + 1) * (g x - g (x + 1))) atTop atBot := by
      have : Tendsto (fun n : ℕ => ((n:ℝ) + 1) * (g x - g (x + 1))) atTop atTop :=
        (tendsto_atTop_add_const_right _ _ tendsto_natCast_atTop_atTop).atTop_mul_const (by linarith)
      exact tendsto_atBot_add_const_left _ (g x) (tendsto_neg_atTop_atBot.comp this)
    have h2 := tendsto_atBot_mono hb h1
    exact not_tendsto_nhds_of_tendsto_atBot h2 0 h0
  have mono : ∀ n : ℕ, g z ≤ g (z + n) := by
    intro n
    induction n with
    | zero => simp
    | succ n ih =>
      have := step (z + n) (by positivity)
      have e : z + (n : ℝ) + 1 = z + (n + 1 : ℕ) := by push_cast; ring
      rw [e] at this
      exact ih.trans this
  exact ge_of_tendsto' (hl z hz) mono

theorem phi_lim (s : ℝ) {x : ℝ} (hx : 0 < x) : Tendsto (fun n : ℕ => phi s (x + n)) atTop (𝓝 0) := by
  have a := (dd_lim hx).const_mul s
  have b := GG_lim x
  have c := (a.add b)
  have h := (c.comp (tendsto_add_atTop_nat 1)).sub c
  rw [sub_self] at h
  refine h.congr fun n => ?_
  rw [phi_eq s (by positivity)]
  simp only [Function.comp_apply]
  have e : x + (n : ℝ) + 1 = x + (n + 1 : ℕ) := by push_cast; ring
  rw [e]

theorem sdd_le (s : ℤ) (hs : s = 1 ∨ s = -1) {z : ℝ} (hz : 0 < z) : (s : ℝ) * Real.log lanC ≤ s * dd z + GG z := by
  have hn : ∀ n : ℕ, s * dd (z + n) + GG (z + n) ≤ s * dd z + GG z := by
    intro n
    induction n with
    | zero => simp
    | succ n ih =>
      have h := concave_nonpos (phi_concave s hs) (fun x hx => phi_lim s hx) (show 0 < z + (n:ℝ) by positivity)
      rw [phi_eq _ (by positivity)] at h
      have e : z + (n : ℝ) + 1 = z + (n + 1 : ℕ) := by push_cast; ring
      rw [e] at h
      linarith
  have h := ((dd_lim hz).const_mul (s : ℝ)).add (GG_lim z)
  rw [add_zero] at h
  exact le_of_tendsto' h hn

theorem log_lanC : -(3 / 10 ^ 15) ≤ Real.log lanC ∧ Real.log lanC ≤ 0 := by
  constructor
  · have h := Real.one_sub_inv_le_log_of_pos (x := lanC) (by rw [lanC]; norm_num)
    refine le_trans ?_ h
    rw [lanC]; norm_num
  · exact Real.log_nonpos (by rw [lanC]; norm_num) (by rw [lanC]; norm_num)

/-- **The Lanczos formula of lgamma.hpp approximates `log Γ` on the whole half line.** -/
theorem lanczos {z : ℝ} (hz : 0 < z) : |lanL z - Real.log (Real.Gamma z)| ≤ GG z + 3 / 10 ^ 15 := by
  have h1 := sdd_le 1 (Or.inl rfl) hz
  have h2 := sdd_le (-1) (Or.inr rfl) hz
  obtain ⟨h3, h4⟩ := log_lanC
  push_cast at h1 h2
  rw [dd] at h1 h2
  rw [abs_le]
  constructor <;> linarith

theorem GG_anti {a z : ℝ} (ha : 0 ≤ a) (h : a ≤ z) : GG z ≤ GG a := by
  unfold GG
  gcongr

theorem lanczos_all {z : ℝ} (hz : 0 < z) : |lanL z - Real.log (Real.Gamma z)| ≤ 18 / 10 ^ 15 := by
  refine (lanczos hz).trans ?_
  have := GG_anti le_rfl hz.le
  have e : GG 0 ≤ 15 / 10 ^ 15 := by unfold GG; norm_num
  linarith

end Lan
end Gcem
