import Verif.Fp.Calc
import Verif.Model.Elem
import Verif.Analysis.Newton
import Mathlib.Analysis.Real.Sqrt
import Mathlib.Tactic.LinearCombination

/-!
# Floating-point analysis of the Newton iterations of sqrt.hpp and inv_sqrt.hpp
-/

namespace Gcem
open FV
variable {f : Fmt}

theorem rnd_err_real (q : ℚ) : |((rnd f q : ℚ) : ℝ) - q| ≤ uro f * |(q:ℝ)| + pow2 f.emin / 2 := by
  have := rnd_err_all (f := f) q
  exact_mod_cast this

theorem uro_ge (f : Fmt) : (1:ℝ) / 2 ^ 64 ≤ uro f := by
  have : (1:ℚ) / 2 ^ 64 ≤ uro f := by
    unfold uro
    have h1 : pow2 (-64) ≤ pow2 (-(f.prec:ℤ)) := pow2_le (by rcases f with ⟨⟨⟩, ⟨⟩⟩ <;> decide)
    have h : pow2 (-64) = 1 / 2 ^ 64 := by norm_num [pow2_eq]
    linarith
  have h2 := (Rat.cast_le (K := ℝ)).2 this
  push_cast at h2; exact h2

theorem uro_lt_rat (f : Fmt) : uro f ≤ 1 / 16777216 := by
  have := uro_le f
  have h2 : ((uro f : ℚ) : ℝ) ≤ ((1 / 16777216 : ℚ) : ℝ) := by push_cast; exact this
  exact (Rat.cast_le (K := ℝ)).1 h2

/-- Facts about the argument `q` of the Newton iteration for the square root. -/
structure SqrtArg (f : Fmt) (q : ℚ) : Prop where
  inexact : f.exact = false
  pos : 0 < q
  ge : minNormal f ≤ q
  le4 : q ≤ 4
  lo : (1:ℝ) / 2 ^ 90 ≤ √(q:ℝ)
  sub : ((pow2 f.emin : ℚ) : ℝ) ≤ (uro f : ℝ) ^ 2 * √(q:ℝ)
  nrm : 32 * ((minNormal f : ℚ) : ℝ) ≤ (uro f : ℝ) ^ 2 * √(q:ℝ)

variable {q a : ℚ}

theorem SqrtArg.s_pos (h : SqrtArg f q) : 0 < √(q:ℝ) := lt_of_lt_of_le (by positivity) h.lo
theorem SqrtArg.s_le (h : SqrtArg f q) : √(q:ℝ) ≤ 2 := by
  have : (q:ℝ) ≤ 4 := by exact_mod_cast h.le4
  rw [show (2:ℝ) = √4 by rw [show (4:ℝ) = 2 ^ 2 by norm_num, Real.sqrt_sq (by norm_num)]]
  exact Real.sqrt_le_sqrt this
theorem SqrtArg.sq (h : SqrtArg f q) : √(q:ℝ) ^ 2 = q :=
  Real.sq_sqrt (by exact_mod_cast h.pos.le)
theorem SqrtArg.nrm2 (h : SqrtArg f q) : 32 * ((minNormal f : ℚ) : ℝ) ≤ √(q:ℝ) := by
  have h1 := h.nrm
  have h2 := h.s_pos
  have hu := uro_pos_real f
  have hu1 := uro_le f
  nlinarith [mul_pos hu h2, mul_pos (mul_pos hu hu) h2]

/-- The quotient `x / xn` of the iteration: its error relative to the root. -/
theorem SqrtArg.quot' (h : SqrtArg f q) (ha : 0 < a) :
    |((rnd f (q / a) : ℚ) : ℝ) / √(q:ℝ) - 1 / (a / √(q:ℝ))|
      ≤ uro f / (a / √(q:ℝ)) + (uro f : ℝ) ^ 2 / 2 := by
  have hs := h.s_pos
  have ha' : (0:ℝ) < a := by exact_mod_cast ha
  have hq' : (0:ℝ) < q := by exact_mod_cast h.pos
  have hu := uro_pos_real f
  have herr := rnd_err_real (f := f) (q / a)
  push_cast at herr
  have hqa : (0:ℝ) < q / a := by positivity
  rw [abs_of_pos hqa] at herr
  have hsq := h.sq
  have e2 : (q:ℝ) / a = √(q:ℝ) * (1 / (a / √(q:ℝ))) := by
    conv_lhs => rw [← hsq]
    field_simp
  have e1 : ((rnd f (q / a) : ℚ) : ℝ) / √(q:ℝ) - 1 / (a / √(q:ℝ))
      = (((rnd f (q / a) : ℚ) : ℝ) - q / a) / √(q:ℝ) := by
    rw [sub_div, e2, mul_div_cancel_left₀ _ hs.ne']
  rw [e1, abs_div, abs_of_pos hs, div_le_iff₀ hs]
  have e3 : uro f / (a / √(q:ℝ)) = uro f * (1 / (a / √(q:ℝ))) := by ring
  have hsub := h.sub
  rw [e3]
  calc |((rnd f (q / a) : ℚ) : ℝ) - q / a| ≤ uro f * (q / a) + (pow2 f.emin : ℚ) / 2 := herr
    _ ≤ uro f * (√(q:ℝ) * (1 / (a / √(q:ℝ)))) + (uro f : ℝ) ^ 2 * √(q:ℝ) / 2 := by rw [← e2]; linarith
    _ = _ := by ring

theorem SqrtArg.quot (h : SqrtArg f q) (ha : 0 < a) :
    |((rnd f (q / a) : ℚ) : ℝ) / √(q:ℝ) - 1 / (a / √(q:ℝ))|
      ≤ 2.5 * uro f / (a / √(q:ℝ)) + (uro f : ℝ) ^ 2 := by
  refine (h.quot' ha).trans ?_
  have hs := h.s_pos
  have ha' : (0:ℝ) < a := by exact_mod_cast ha
  have hu := uro_pos_real f
  have : 0 < uro f / (a / √(q:ℝ)) := by positivity
  have h2 : 2.5 * uro f / (a / √(q:ℝ)) = 2.5 * (uro f / (a / √(q:ℝ))) := by ring
  nlinarith [sq_nonneg (uro f : ℝ)]

/-- Value of the next iterate. -/
def sqrtNext (f : Fmt) (q a : ℚ) : ℚ := rnd f (1/2 * rnd f (a + rnd f (q / a)))

theorem sqrt_next_is {x xn : FV f} (h : SqrtArg f q) (hx : Is x q) (hxn : Is xn a) (ha : 0 < a)
    (ha8 : a ≤ 8) (hqa : q / a ≤ 2 ^ 100) :
    Is (d 0.5 * (xn + x / xn)) (sqrtNext f q a) := by
  have hqa0 : 0 < q / a := div_pos h.pos ha
  have hy : rnd f (q / a) ≤ 2 ^ 100 := rnd_le_of_rep rep_pow2_nat hqa
  have hy0 : 0 ≤ rnd f (q / a) := rnd_nonneg hqa0.le
  have hS : rnd f (a + rnd f (q / a)) ≤ 2 ^ 101 := rnd_le_of_rep rep_pow2_nat (by
    norm_num at hy ⊢; linarith)
  have hS0 : 0 ≤ rnd f (a + rnd f (q / a)) := rnd_nonneg (by linarith)
  apply Is.mul is_d_half
  · apply Is.add hxn
    · exact hx.div hxn ha.ne' (nov (by rw [abs_of_pos hqa0]; norm_num at hqa ⊢; linarith))
    · exact nov (by rw [abs_of_nonneg (by linarith)]; norm_num at hy ⊢; linarith)
  · exact nov (by rw [abs_of_nonneg (by linarith)]; norm_num at hS ⊢; linarith)

theorem sqrt_next_step (h : SqrtArg f q) (ha : 0 < a) :
    ∃ e δ : ℝ, |e| ≤ 2.5 * uro f / (a / √(q:ℝ)) + (uro f : ℝ) ^ 2 ∧ |δ| ≤ uro f ∧
      (sqrtNext f q a : ℝ) / √(q:ℝ) = Newton.step (a / √(q:ℝ)) e δ := by
  have hs := h.s_pos
  have ha' : (0:ℝ) < a := by exact_mod_cast ha
  have hu := uro_pos_real f
  have hu1 := uro_le f
  have hquot := h.quot ha
  set t := (a:ℝ) / √(q:ℝ) with ht
  have htp : 0 < t := by positivity
  set e := ((rnd f (q / a) : ℚ) : ℝ) / √(q:ℝ) - 1 / t with he
  have hlo := Newton.step_lo (δ := 0) hu hu1 htp hquot (by simpa using hu.le)
  have hsum : ((a + rnd f (q / a) : ℚ) : ℝ) = √(q:ℝ) * (t + 1 / t + e) := by
    rw [he, ht]; push_cast; field_simp; ring
  unfold Newton.step at hlo
  have hlo2 : √(q:ℝ) ≤ ((a + rnd f (q / a) : ℚ) : ℝ) := by
    rw [hsum]; nlinarith
  have hn2 := h.nrm2
  have hmn : (0:ℝ) < ((minNormal f : ℚ) : ℝ) := by exact_mod_cast minNormal_pos f
  have hS : 4 * minNormal f ≤ a + rnd f (q / a) := by
    have : ((4 * minNormal f : ℚ) : ℝ) ≤ ((a + rnd f (q / a) : ℚ) : ℝ) := by push_cast at *; linarith
    exact_mod_cast this
  have hmn' := minNormal_pos f
  obtain ⟨δ, hδ, hδe⟩ := rnd_rel (f := f) (q := a + rnd f (q / a)) (by
    rw [abs_of_nonneg (by linarith)]; linarith)
  refine ⟨e, δ, hquot, hδ, ?_⟩
  have hR : 2 * minNormal f ≤ rnd f (a + rnd f (q / a)) := by
    have h2 : Rep f (2 * minNormal f) := by
      unfold minNormal; rw [← pow2_succ]
      exact rep_pow2 (by rcases f with ⟨⟨⟩, ⟨⟩⟩ <;> decide)
    exact le_rnd_of_rep h2 (by linarith)
  have hhalf : sqrtNext f q a = 1/2 * rnd f (a + rnd f (q / a)) :=
    rep_half h.inexact (rep_rnd _ _) (by rw [abs_of_nonneg (by linarith)]; exact hR)
  rw [hhalf]
  unfold Newton.step
  push_cast
  push_cast at hδe hsum
  rw [hδe, hsum]; field_simp

/-- If the stopping test fires, the iterate is within `3u` of the root. -/
theorem sqrt_stop {x xn : FV f} (h : SqrtArg f q) (hx : Is x q) (hxn : Is xn a) (ha : 0 < a)
    (ha8 : a ≤ 8) (hqa : q / a ≤ 2 ^ 100)
    (hstop : fabs (xn - x / xn) / (i 1 + xn) < limMin) : |(a:ℝ) / √(q:ℝ) - 1| ≤ 3 * uro f := by
  have hs := h.s_pos
  have ha' : (0:ℝ) < a := by exact_mod_cast ha
  have hu := uro_pos_real f
  have hu1 := uro_le f
  have hqa0 : 0 < q / a := div_pos h.pos ha
  have hy : rnd f (q / a) ≤ 2 ^ 100 := rnd_le_of_rep rep_pow2_nat hqa
  have hy0 : 0 ≤ rnd f (q / a) := rnd_nonneg hqa0.le
  set y := rnd f (q / a) with hyd
  have hY : Is (x / xn) y :=
    hx.div hxn ha.ne' (nov (by rw [abs_of_pos hqa0]; norm_num at hqa ⊢; linarith))
  have hD : Is (fabs (xn - x / xn)) |rnd f (a - y)| :=
    (hxn.sub hY (nov (by rw [abs_le]; norm_num at hy ⊢; constructor <;> linarith))).fabs
  have hDb : |rnd f (a - y)| ≤ 2 ^ 101 := abs_rnd_le_of_rep rep_pow2_nat (by
    rw [abs_le]; norm_num at hy ⊢; constructor <;> linarith)
  have hO : Is (i 1 + xn) (rnd f (1 + a)) := by
    rw [i_one]; exact (is_fin 1 false).add hxn (nov (by rw [abs_of_pos (by linarith)]; norm_num; linarith))
  have hOl : 1 ≤ rnd f (1 + a) := by
    refine le_rnd_of_rep ?_ (by linarith)
    have := rep_pow2_nat (f := f) (n := 0); simpa using this
  have hOu : rnd f (1 + a) ≤ 16 := by
    refine rnd_le_of_rep ?_ (by linarith)
    have := rep_pow2_nat (f := f) (n := 4); norm_num at this; exact this
  have hQ : |(|rnd f (a - y)| / rnd f (1 + a))| ≤ 2 ^ 101 := by
    rw [abs_div, abs_abs, abs_of_pos (show 0 < rnd f (1 + a) by linarith),
      div_le_iff₀ (show 0 < rnd f (1 + a) by linarith)]
    norm_num at hDb ⊢
    nlinarith [abs_nonneg (rnd f (a - y))]
  have hO0 : rnd f (1 + a) ≠ 0 := by linarith
  have hlm : Is (limMin : FV f) (minNormal f) := is_fin _ _
  rw [(hD.div hO hO0 (nov (hQ.trans (by norm_num)))).lt_iff hlm] at hstop
  have h1 : |rnd f (a - y)| / rnd f (1 + a) < minNormal f := by
    by_contra hc; push Not at hc
    exact absurd (rnd_pos hc) (not_le.2 hstop)
  rw [div_lt_iff₀ (by linarith)] at h1
  have hmn := minNormal_pos f
  have h2 : |rnd f (a - y)| < 16 * minNormal f := by nlinarith
  have h16 : Rep f (16 * minNormal f) := by
    have : 16 * minNormal f = pow2 (f.emin + f.prec - 1 + 4) := by
      unfold minNormal; rw [pow2_add]; norm_num [pow2_eq]; ring
    rw [this]
    exact rep_pow2 (by rcases f with ⟨⟨⟩, ⟨⟩⟩ <;> decide)
  have h3 : |a - y| < 16 * minNormal f := by
    by_contra hc; push Not at hc
    rcases le_abs.1 hc with hc | hc
    · have := le_rnd_of_rep h16 hc
      exact absurd (this.trans (le_abs_self _)) (not_le.2 h2)
    · have := le_rnd_of_rep h16 hc
      rw [rnd_neg] at this
      exact absurd (this.trans (neg_le_abs _)) (not_le.2 h2)
  have h4 : |(a:ℝ) - y| < 16 * ((minNormal f : ℚ) : ℝ) := by exact_mod_cast h3
  have hq := h.quot' ha
  rw [← hyd] at hq
  have hn := h.nrm
  set t := (a:ℝ) / √(q:ℝ) with ht
  have htp : 0 < t := by positivity
  refine Newton.stop_near hu hu1 htp ?_
  have h5 : |t - y / √(q:ℝ)| ≤ (uro f : ℝ) ^ 2 / 2 := by
    rw [ht, ← sub_div, abs_div, abs_of_pos hs, div_le_iff₀ hs]
    linarith
  have h6 : |t - 1 / t| ≤ |t - y / √(q:ℝ)| + |y / √(q:ℝ) - 1 / t| := by
    have := abs_add_le (t - y / √(q:ℝ)) (y / √(q:ℝ) - 1 / t)
    rwa [sub_add_sub_cancel] at this
  have h7 : 0 < uro f / t := by positivity
  have h8 : 2.5 * uro f / t = 2.5 * (uro f / t) := by ring
  have h9 : 0 < (uro f : ℝ) ^ 2 * t := by positivity
  linarith

/-- From an iterate within reach, the iteration ends within `3u` of the root. -/
theorem sqrt_recur_near {x : FV f} (h : SqrtArg f q) (hx : Is x q) :
    ∀ (left : ℕ) (a : ℚ) (xn : FV f), Is xn a → 0 < a → a ≤ 8 →
      1 - 3 * uro f ≤ (a:ℝ) / √(q:ℝ) → (a:ℝ) / √(q:ℝ) ≤ Newton.bnd (uro f) left →
      ∃ r : ℚ, Is (sqrt_recur x left xn) r ∧ |(r:ℝ) / √(q:ℝ) - 1| ≤ 3 * uro f := by
  have hs := h.s_pos
  have hu := uro_pos_real f
  have hu1 := uro_le f
  have hs2 := h.s_le
  intro left
  induction left with
  | zero =>
    intro a xn hxn ha ha8 hlo hhi
    refine ⟨a, ?_, ?_⟩
    · rw [sqrt_recur]; simpa using hxn
    · change _ ≤ 1 + 3 * (uro f : ℝ) at hhi
      rw [abs_le]; constructor <;> linarith
  | succ n ih =>
    intro a xn hxn ha ha8 hlo hhi
    have ha' : (0:ℝ) < a := by exact_mod_cast ha
    have hqa : q / a ≤ 2 ^ 100 := by
      have h1 : (q:ℝ) / a ≤ 4 := by
        rw [div_le_iff₀ ha']
        rw [le_div_iff₀ hs] at hlo
        have := h.sq
        nlinarith
      have h2 : q / a ≤ 4 := by exact_mod_cast h1
      norm_num; linarith
    rw [sqrt_recur]
    split_ifs with hstop
    · exact ⟨a, hxn, sqrt_stop h hx hxn ha ha8 hqa hstop⟩
    · obtain ⟨e, δ, he, hδ, hst⟩ := sqrt_next_step h ha
      have htp : 0 < (a:ℝ) / √(q:ℝ) := by positivity
      have hl := Newton.step_lo hu hu1 htp he hδ
      have hf := Newton.step_far hu hu1 hlo he hδ
      have hb := Newton.bnd_step n hu (uro_ge f) hu1 hlo hhi he hδ
      rw [← hst] at hl hf hb
      have hp : (0:ℝ) < sqrtNext f q a := by
        rw [le_div_iff₀ hs] at hl; nlinarith
      refine ih (sqrtNext f q a) _ (sqrt_next_is h hx hxn ha ha8 hqa) (by exact_mod_cast hp) ?_ hl hb
      have : (sqrtNext f q a : ℝ) ≤ 8 := by
        have ha8' : (a:ℝ) ≤ 8 := by exact_mod_cast ha8
        rw [div_le_iff₀ hs] at hf
        have h3 : (0.5001 * ((a:ℝ) / √(q:ℝ)) + 0.5001) * √(q:ℝ) = 0.5001 * a + 0.5001 * √(q:ℝ) := by
          field_simp
        rw [h3] at hf
        linarith
      exact_mod_cast this

/-- The whole iteration for the square root: starting at `q/2` it ends within `3u` of the root. -/
theorem sqrt_recur_spec {x : FV f} (h : SqrtArg f q) (hx : Is x q) :
    ∃ r : ℚ, Is (sqrt_recur x 100 (x / i 2)) r ∧ |(r:ℝ) / √(q:ℝ) - 1| ≤ 3 * uro f := by
  have hs := h.s_pos
  have hu := uro_pos_real f
  have hu1 := uro_le f
  have hs2 := h.s_le
  have hmn := minNormal_pos f
  have hq := h.pos
  have hq4 := h.le4
  have hq' : (0:ℝ) < q := by exact_mod_cast hq
  set a := rnd f (q / 2) with had
  have ha2 : a ≤ 2 := by
    refine rnd_le_of_rep ?_ (by linarith)
    have := rep_pow2_nat (f := f) (n := 1); norm_num at this; exact this
  have hqa : q / 4 ≤ a := by
    have herr := rnd_err_all (f := f) (q / 2)
    rw [abs_of_pos (by linarith : 0 < q / 2)] at herr
    have hpe : pow2 f.emin = 2 * (uro f * minNormal f) := by
      unfold uro minNormal
      rw [← pow2_add, ← pow2_succ]; congr 1; ring
    have hu' := uro_pos f
    have hu1' := uro_lt_rat f
    have hge := h.ge
    have := (abs_le.1 herr).1
    rw [hpe] at this
    nlinarith
  have ha0 : 0 < a := by linarith
  have ha' : (0:ℝ) < a := by exact_mod_cast ha0
  have hxn : Is (x / i 2) a := hx.div (by rw [i_two]; exact is_fin _ _) (by norm_num)
    (nov (by rw [abs_of_pos (by linarith)]; norm_num; linarith))
  have hqa' : q / a ≤ 4 := by rw [div_le_iff₀ ha0]; linarith
  have hqa2 : q / a ≤ 2 ^ 100 := by norm_num; linarith
  rw [sqrt_recur]
  split_ifs with hstop
  · exact ⟨a, hxn, sqrt_stop h hx hxn ha0 (by linarith) hqa2 hstop⟩
  · obtain ⟨e, δ, he, hδ, hst⟩ := sqrt_next_step h ha0
    have htp : 0 < (a:ℝ) / √(q:ℝ) := by positivity
    have hl := Newton.step_lo hu hu1 htp he hδ
    have hb : (sqrtNext f q a : ℝ) / √(q:ℝ) * √(q:ℝ) ≤ 3.01 := by
      have e1 : (a:ℝ) ≤ 2 := by exact_mod_cast ha2
      have e2 : (q:ℝ) / a ≤ 4 := by exact_mod_cast hqa'
      have e3 : (1 / ((a:ℝ) / √(q:ℝ))) * √(q:ℝ) = q / a := by
        have := h.sq
        conv_rhs => rw [← this]
        field_simp
      have e4 : (a:ℝ) / √(q:ℝ) * √(q:ℝ) = a := by field_simp
      set r := 1 / ((a:ℝ) / √(q:ℝ)) with hr
      have e5 : 2.5 * uro f / ((a:ℝ) / √(q:ℝ)) = 2.5 * uro f * r := by rw [hr]; ring
      rw [e5] at he
      rw [hst]
      unfold Newton.step
      rw [← hr]
      obtain ⟨-, he2⟩ := abs_le.1 he
      obtain ⟨hd1, hd2⟩ := abs_le.1 hδ
      have e6 : e * √(q:ℝ) ≤ 0.001 := by
        have : e * √(q:ℝ) ≤ (2.5 * uro f * r + (uro f : ℝ) ^ 2) * √(q:ℝ) :=
          mul_le_mul_of_nonneg_right he2 hs.le
        have h1 : (2.5 * uro f * r + (uro f : ℝ) ^ 2) * √(q:ℝ)
            = 2.5 * uro f * (q / a) + (uro f : ℝ) ^ 2 * √(q:ℝ) := by rw [← e3]; ring
        have h2 : (uro f : ℝ) ^ 2 ≤ 1 / 16777216 := by nlinarith
        nlinarith [sq_nonneg (uro f : ℝ), mul_le_mul h2 hs2 hs.le (by norm_num)]
      have e7 : ((a:ℝ) / √(q:ℝ) + r + e) * (1 + δ) / 2 * √(q:ℝ)
          = (a + q / a + e * √(q:ℝ)) * (1 + δ) / 2 := by rw [← e3]; linear_combination ((1 + δ) / 2) * e4
      rw [e7]
      nlinarith
    rw [← hst] at hl
    have hb1 : (sqrtNext f q a : ℝ) ≤ 3.01 := by rwa [div_mul_cancel₀ _ hs.ne'] at hb
    have hp : (0:ℝ) < sqrtNext f q a := by
      rw [le_div_iff₀ hs] at hl; nlinarith
    refine sqrt_recur_near h hx 99 _ _ (sqrt_next_is h hx hxn ha0 (by linarith) hqa2)
      (by exact_mod_cast hp) ?_ hl ?_
    · have : (sqrtNext f q a : ℝ) ≤ 8 := by linarith
      exact_mod_cast this
    · refine le_trans ?_ (Newton.bnd_99)
      rw [div_le_iff₀ hs]
      have := h.lo
      rw [div_le_iff₀ (by positivity)] at this
      norm_num at this ⊢
      linarith


end Gcem
