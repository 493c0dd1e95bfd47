import Mathlib.Analysis.Calculus.Deriv.Inv
import Mathlib.Analysis.Calculus.Deriv.Mul
import Mathlib.Analysis.Calculus.Deriv.Add
import Mathlib.Analysis.Calculus.Deriv.Pow
import Mathlib.Data.Rat.Cast.Order
import Mathlib.Tactic.FieldSimp
import Mathlib.Tactic.Linarith

/-!
# Truncated continued fractions with denominators `2d - 1`

`cfT c s m d = (2d-1) - c d s / ((2d+1) - c (d+1) s / (… - c (d+m-1) s / (2(d+m)-1)))`.

With `c d = d^2` this is the tail of the continued fraction of the logarithm (`s = z^2`) and of the
arctangent (`s = -x^2`), with `c d = 1` the one of the tangent (`s = x^2`) and of the hyperbolic tangent
(`s = -x^2`).  The truncated fraction `z / cfT c s m 1` satisfies the differential equation of the limit up
to a product that is computed here exactly.
-/

namespace Gcem

def cfT {K : Type*} [Field K] (c : ℕ → K) (s : K) : ℕ → ℕ → K
  | 0, d => 2 * d - 1
  | m + 1, d => 2 * d - 1 - c d * s / cfT c s m (d + 1)

theorem cfT_cast (c : ℕ → ℚ) (s : ℚ) (m d : ℕ) :
    ((cfT c s m d : ℚ) : ℝ) = cfT (fun d => (c d : ℝ)) (s : ℝ) m d := by
  induction m generalizing d with
  | zero => simp [cfT]
  | succ m ih => simp [cfT, ih]

/-- derivative in `s` -/
noncomputable def cfD (c : ℕ → ℝ) (s : ℝ) : ℕ → ℕ → ℝ
  | 0, _ => 0
  | m + 1, d => - (c d / cfT c s m (d + 1)) + c d * s * cfD c s m (d + 1) / cfT c s m (d + 1) ^ 2

theorem cfT_hasDerivAt (c : ℕ → ℝ) (s : ℝ) : ∀ (m d : ℕ), (∀ m' d', m' < m → d < d' → cfT c s m' d' ≠ 0) →
    HasDerivAt (fun s => cfT c s m d) (cfD c s m d) s
  | 0, d, _ => by simpa [cfT, cfD] using hasDerivAt_const s (2 * (d:ℝ) - 1)
  | m + 1, d, h => by
    have h0 := h m (d + 1) (by omega) (by omega)
    have ih := cfT_hasDerivAt c s m (d + 1) (fun m' d' h1 h2 => h m' d' (by omega) (by omega))
    have h1 := (((hasDerivAt_id s).const_mul (c d)).div ih h0).const_sub (2 * (d:ℝ) - 1)
    refine HasDerivAt.congr_deriv h1 ?_
    simp only [cfD, id, mul_one]
    field_simp
    ring

/-- the defect product -/
noncomputable def cfP (c : ℕ → ℝ) (s : ℝ) : ℕ → ℕ → ℝ
  | 0, d => c d * s
  | m + 1, d => c d * s / cfT c s m (d + 1) ^ 2 * cfP c s m (d + 1)

theorem cf_riccati (c : ℕ → ℝ) (ε s : ℝ) (hc : ∀ d, c (d + 1) = c d + ε * (2 * d + 1)) :
    ∀ (m d : ℕ), (∀ m' d', m' < m → d < d' → cfT c s m' d' ≠ 0) →
    (1 - ε * s) * (2 * s) * cfD c s m d - (2 * d - 1 - ε * s) * cfT c s m d + cfT c s m d ^ 2
      + (c d - ε * (2 * d - 1)) * s = cfP c s m d
  | 0, d, _ => by simp [cfD, cfT, cfP]; ring
  | m + 1, d, h => by
    have h0 := h m (d + 1) (by omega) (by omega)
    have ih := cf_riccati c ε s hc m (d + 1) (fun m' d' h1 h2 => h m' d' (by omega) (by omega))
    simp only [cfD, cfT, cfP]
    rw [← ih, hc d]
    push_cast
    field_simp
    ring

/-- the truncated fraction as a function of `z`, `s = κ z^2`: it satisfies
`(1 - ε s) g' = 1 + (c 1 - ε) κ g^2 - P`. -/
theorem cf_ode (c : ℕ → ℝ) (ε κ z : ℝ) (hc : ∀ d, c (d + 1) = c d + ε * (2 * d + 1)) (m : ℕ)
    (h : ∀ m' d', m' ≤ m → 1 ≤ d' → cfT c (κ * z ^ 2) m' d' ≠ 0) :
    ∃ g', HasDerivAt (fun z => z / cfT c (κ * z ^ 2) m 1) g' z ∧
      (1 - ε * (κ * z ^ 2)) * g' = 1 + (c 1 - ε) * κ * (z / cfT c (κ * z ^ 2) m 1) ^ 2
        - cfP c (κ * z ^ 2) m 1 / cfT c (κ * z ^ 2) m 1 ^ 2 := by
  have h0 := h m 1 le_rfl le_rfl
  have hd := cfT_hasDerivAt c (κ * z ^ 2) m 1 (fun m' d' h1 h2 => h m' d' (by omega) (by omega))
  have hr := cf_riccati c ε (κ * z ^ 2) hc m 1 (fun m' d' h1 h2 => h m' d' (by omega) (by omega))
  have hs : HasDerivAt (fun z : ℝ => κ * z ^ 2) (κ * (2 * z)) z := by
    have := ((hasDerivAt_id z).pow 2).const_mul κ
    simpa using this
  have hcomp := HasDerivAt.comp z hd hs
  have hg := (hasDerivAt_id z).div hcomp h0
  refine ⟨_, hg, ?_⟩
  simp only [id, Function.comp_apply, one_mul]
  rw [← hr]
  push_cast
  field_simp
  ring

end Gcem
