import Verif.Analysis.Consts
import Verif.Model.Elem
import Verif.Fp.Calc

/-!
# C61: the stored constants
-/

namespace Gcem.Props
open Gcem FV
variable {f : Fmt}

/-- C61: the eleven constants of gcem_options.hpp, as written, are within half a unit of the last printed
(fortieth) decimal of the real number they stand for. -/
theorem C61_constants :
    |(LOG_2 : ℝ) - Real.log 2| ≤ ((1 / (2 * 10 ^ 40) : ℚ) : ℝ) ∧
    |(LOG_10 : ℝ) - Real.log 10| ≤ ((1 / (2 * 10 ^ 40) : ℚ) : ℝ) ∧
    |(PI : ℝ) - Real.pi| ≤ ((1 / (2 * 10 ^ 40) : ℚ) : ℝ) ∧
    |(LOG_PI : ℝ) - Real.log Real.pi| ≤ ((1 / (2 * 10 ^ 40) : ℚ) : ℝ) ∧
    |(LOG_2PI : ℝ) - Real.log (2 * Real.pi)| ≤ ((1 / (2 * 10 ^ 40) : ℚ) : ℝ) ∧
    |(LOG_SQRT_2PI : ℝ) - Real.log (Real.sqrt (2 * Real.pi))| ≤ ((1 / (2 * 10 ^ 40) : ℚ) : ℝ) ∧
    |(SQRT_2 : ℝ) - Real.sqrt 2| ≤ ((1 / (2 * 10 ^ 40) : ℚ) : ℝ) ∧
    |(HALF_PI : ℝ) - Real.pi / 2| ≤ ((1 / (2 * 10 ^ 40) : ℚ) : ℝ) ∧
    |(SQRT_PI : ℝ) - Real.sqrt Real.pi| ≤ ((1 / (2 * 10 ^ 40) : ℚ) : ℝ) ∧
    |(SQRT_HALF_PI : ℝ) - Real.sqrt (Real.pi / 2)| ≤ ((1 / (2 * 10 ^ 40) : ℚ) : ℝ) ∧
    |(GCEM_E : ℝ) - Real.exp 1| ≤ ((1 / (2 * 10 ^ 40) : ℚ) : ℝ) :=
  ⟨LOG_2_err, LOG_10_err, PI_err, LOG_PI_err, LOG_2PI_err, LOG_SQRT_2PI_err, SQRT_2_err, HALF_PI_err,
    SQRT_PI_err, SQRT_HALF_PI_err, GCEM_E_err⟩

/-- C61: so are the nine logarithms tabulated in log.hpp; the remaining entry is `ln 1 = 0`. -/
theorem C61_log_table (n : ℤ) (h1 : 1 ≤ n) (h2 : n ≤ 10) :
    |(log_mantissa_integer n : ℝ) - Real.log n| ≤ ((1 / (2 * 10 ^ 40) : ℚ) : ℝ) := by
  have key : ∀ (m : ℤ) (q : ℚ), (m : ℚ) = q → 2 ≤ m → m ≤ 10 →
      |(log_mantissa_integer m : ℝ) - Real.log q| ≤ ((1 / (2 * 10 ^ 40) : ℚ) : ℝ) →
      |(log_mantissa_integer m : ℝ) - Real.log m| ≤ ((1 / (2 * 10 ^ 40) : ℚ) : ℝ) := by
    intro m q h _ _ h3
    have : ((m : ℤ) : ℝ) = (q : ℝ) := by rw [← h]; push_cast; rfl
    rw [this]; exact h3
  obtain rfl | rfl | rfl | rfl | rfl | rfl | rfl | rfl | rfl | rfl :
    n = 1 ∨ n = 2 ∨ n = 3 ∨ n = 4 ∨ n = 5 ∨ n = 6 ∨ n = 7 ∨ n = 8 ∨ n = 9 ∨ n = 10 := by omega
  · have : log_mantissa_integer 1 = 0 := by decide +kernel
    rw [this]; norm_num
  all_goals
    refine key _ _ rfl (by norm_num) (by norm_num) ?_
    refine log_err (log_mantissa_integer _) (1 / (2 * 10 ^ 40)) _ 8 40 (by norm_num) (by norm_num) (by norm_num)
      (by norm_num) ?_ ?_ ?_ ?_ ?_ <;> decide +kernel

/-- `L c` in every type, for a literal of moderate size: the literal is rounded to `long double` and then
to the type -/
theorem L_err {c : ℚ} (h1 : 1 / 4 ≤ c) (h2 : c ≤ 4) :
    ∃ v w, (L c : FV f) = fin v w ∧ |v - c| ≤ (uro f.ldbl + uro f + uro f.ldbl * uro f) * c := by
  have hn : ∀ (g : Fmt) (q : ℚ), 1 / 8 ≤ q → minNormal g ≤ |q| := by
    intro g q hq
    rw [abs_of_pos (by linarith)]
    refine (minNormal_le g).trans (le_trans ?_ hq)
    have : pow2 (-126) = 1 / 2 ^ 126 := by rw [pow2_eq]; norm_num
    rw [this]; norm_num
  have e1 := rnd_err_rel (hn f.ldbl c (by linarith))
  rw [abs_of_pos (show 0 < c by linarith)] at e1
  have hu := uro_pos f.ldbl
  have hu' := uro_pos f
  have u1 := (show uro f.ldbl ≤ 1 / 2 by rcases f with ⟨⟨⟩, ⟨⟩⟩ <;> decide +kernel)
  have e1' := abs_le.1 e1
  have p1 : 1 / 8 ≤ rnd f.ldbl c := by nlinarith
  have p2 : rnd f.ldbl c ≤ 8 := by nlinarith
  have e2 := rnd_err_rel (hn f _ p1)
  rw [abs_of_pos (show 0 < rnd f.ldbl c by linarith)] at e2
  obtain ⟨w', hw'⟩ := is_mk (f := f) (q := rnd f.ldbl c) (zs := false)
    (nov (by rw [abs_of_pos (by linarith)]; linarith))
  refine ⟨rnd f (rnd f.ldbl c), w', hw', ?_⟩
  · have e : rnd f (rnd f.ldbl c) - c = (rnd f (rnd f.ldbl c) - rnd f.ldbl c) + (rnd f.ldbl c - c) := by ring
    rw [e]
    refine (abs_add_le _ _).trans ((add_le_add e2 e1).trans ?_)
    nlinarith

/-- C61: in every type the value a caller obtains from one of these constants is within the rounding of the
type (and of `long double`) plus `1e-40` of the real number. -/
theorem C61_in_type (c : ℚ) (y : ℝ) (h1 : 1 / 4 ≤ c) (h2 : c ≤ 4) (h : |(c : ℝ) - y| ≤ ((1 / (2 * 10 ^ 40) : ℚ) : ℝ)) :
    ∃ v w, (L c : FV f) = fin v w ∧
      |(v : ℝ) - y| ≤ (uro f.ldbl + uro f + uro f.ldbl * uro f : ℚ) * c + ((1 / (2 * 10 ^ 40) : ℚ) : ℝ) := by
  obtain ⟨v, w, e1, e2⟩ := L_err (f := f) h1 h2
  refine ⟨v, w, e1, ?_⟩
  have e3 := (Rat.cast_le (K := ℝ)).2 e2
  rw [Rat.cast_abs, Rat.cast_sub, Rat.cast_mul] at e3
  have e : (v : ℝ) - y = (v - c) + (c - y) := by ring
  rw [e]
  exact (abs_add_le _ _).trans (add_le_add e3 h)

example : ∃ v w, (L PI : FV binary64) = fin v w ∧
    |(v : ℝ) - Real.pi| ≤ (uro x87 + uro binary64 + uro x87 * uro binary64 : ℚ) * PI + ((1 / (2 * 10 ^ 40) : ℚ) : ℝ) :=
  C61_in_type PI Real.pi (by decide +kernel) (by decide +kernel) PI_err

end Gcem.Props
