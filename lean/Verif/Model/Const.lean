import Verif.Fp.Format

/-!
# Constants of gcem_options.hpp

The `long double` literals as exact rationals; `FV.L` converts them to `long double` and then to `T`.
-/

namespace Gcem

/-- gcem_options.hpp:90 -/
def LOG_2 : ℚ := 0.6931471805599453094172321214581765680755
/-- gcem_options.hpp:94 -/
def LOG_10 : ℚ := 2.3025850929940456840179914546843642076011
/-- gcem_options.hpp:98 -/
def PI : ℚ := 3.1415926535897932384626433832795028841972
/-- gcem_options.hpp:102 -/
def LOG_PI : ℚ := 1.1447298858494001741434273513530587116473
/-- gcem_options.hpp:106 -/
def LOG_2PI : ℚ := 1.8378770664093454835606594728112352797228
/-- gcem_options.hpp:110 -/
def LOG_SQRT_2PI : ℚ := 0.9189385332046727417803297364056176398614
/-- gcem_options.hpp:114 -/
def SQRT_2 : ℚ := 1.4142135623730950488016887242096980785697
/-- gcem_options.hpp:118 -/
def HALF_PI : ℚ := 1.5707963267948966192313216916397514420986
/-- gcem_options.hpp:122 -/
def SQRT_PI : ℚ := 1.7724538509055160272981674833411451827975
/-- gcem_options.hpp:126 -/
def SQRT_HALF_PI : ℚ := 1.2533141373155002512078826424055226265035
/-- gcem_options.hpp:130 -/
def GCEM_E : ℚ := 2.7182818284590452353602874713526624977572

/-- gcem_options.hpp:137 -/
def ERF_MAX_ITER : ℕ := 60
/-- gcem_options.hpp:141 -/
def ERF_INV_MAX_ITER : ℕ := 60
/-- gcem_options.hpp:145 -/
def EXP_MAX_ITER_SMALL : ℕ := 25
/-- gcem_options.hpp:153 -/
def LOG_MAX_ITER_SMALL : ℕ := 25
/-- gcem_options.hpp:161 -/
def INCML_BETA_TOL : ℚ := 1e-15
/-- gcem_options.hpp:165 -/
def INCML_BETA_MAX_ITER : ℕ := 205
/-- gcem_options.hpp:169 -/
def INCML_BETA_INV_MAX_ITER : ℕ := 35
/-- gcem_options.hpp:173 -/
def INCML_GAMMA_MAX_ITER : ℕ := 55
/-- gcem_options.hpp:177 -/
def INCML_GAMMA_INV_MAX_ITER : ℕ := 35
/-- gcem_options.hpp:181 -/
def SQRT_MAX_ITER : ℕ := 100
/-- gcem_options.hpp:185 -/
def INV_SQRT_MAX_ITER : ℕ := 100
/-- gcem_options.hpp:193 -/
def TANH_MAX_ITER : ℕ := 35

/-- Bound on recursion depth for recursions that the C++ code does not bound itself; running out
is the distinct outcome `UB.noReturn`, which theorems show to be unreachable. -/
def recFuel : ℕ := 2 ^ 70

/-- `while (depth > stop) { res = step(depth, res); --depth; }` starting at the given depth -/
def whileDown {α : Type} (step : ℕ → α → α) (stop : ℕ) : ℕ → α → α
  | 0, res => res
  | d + 1, res => if d + 1 > stop then whileDown step stop d (step (d + 1) res) else res

end Gcem
