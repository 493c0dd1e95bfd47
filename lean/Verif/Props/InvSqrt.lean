import Verif.Props.Sqrt

/-!
# C28: inverse square root
-/

namespace Gcem.Props
open Gcem FV
variable {f : Fmt} {q a : ℚ}

/-! ## Analysis of the iteration on `[2^-60, 2^60]` -/

/-- Rounded reciprocal `1 / (x * xn)` of the iteration. -/
def invQuot (f : Fmt) (q a : ℚ) : ℚ := rnd f (1 / rnd f (q * a))

/-- Value of the next iterate. -/
def invNext (f : Fmt) (q a : ℚ) : ℚ := rnd f (1/2 * rnd f (a + invQuot f q a))

/-- The range in which an iterate `a` is handled, in terms of `t = a·√q`. -/
structure InvOK (f : Fmt) (q a : ℚ) : Prop where
  inexact : f.exact = false
  qlo : (1:ℝ) / 2 ^ 30 ≤ √(q:ℝ)
  qhi : √(q:ℝ) ≤ 2 ^ 30
  apos : 0 < a
  tlo : (1:ℝ) / 2 ^ 91 ≤ a * √(q:ℝ)
  thi : (a:ℝ) * √(q:ℝ) ≤ 2 ^ 93

theorem inv_facts (h : InvOK f q a) :
    0 < √(q:ℝ) ∧ (0:ℝ) < q ∧ √(q:ℝ) ^ 2 = q ∧ (0:ℝ) < a ∧
    (1:ℝ) / 2 ^ 121 ≤ q * a ∧ (q:ℝ) * a ≤ 2 ^ 123 ∧ (1:ℝ) / 2 ^ 121 ≤ a ∧ (a:ℝ) ≤ 2 ^ 123 := by
  have hs : 0 < √(q:ℝ) := lt_of_lt_of_le (by positivity) h.qlo
  have hq : (0:ℝ) < q := Real.sqrt_pos.1 hs
  have hsq := Real.sq_sqrt hq.le
  have ha : (0:ℝ) < a := by exact_mod_cast h.apos
  have e1 : (q:ℝ) * a = a * √(q:ℝ) * √(q:ℝ) := by rw [mul_assoc, ← sq, hsq]; ring
  have h1 := h.qlo
  have h2 := h.qhi
  have h3 := h.tlo
  have h4 := h.thi
  refine ⟨hs, hq, hsq, ha, ?_, ?_, ?_, ?_⟩
  · rw [e1]
    calc (1:ℝ) / 2 ^ 121 = 1 / 2 ^ 91 * (1 / 2 ^ 30) := by norm_num
      _ ≤ _ := mul_le_mul h3 h1 (by positivity) (by positivity)
  · rw [e1]
    calc (a:ℝ) * √(q:ℝ) * √(q:ℝ) ≤ 2 ^ 93 * 2 ^ 30 := mul_le_mul h4 h2 hs.le (by positivity)
      _ = 2 ^ 123 := by norm_num
  · have e2 : (a:ℝ) = a * √(q:ℝ) / √(q:ℝ) := by field_simp
    rw [e2, le_div_iff₀ hs]
    calc (1:ℝ) / 2 ^ 121 * √(q:ℝ) ≤ 1 / 2 ^ 121 * 2 ^ 30 := by gcongr
      _ = 1 / 2 ^ 91 := by norm_num
      _ ≤ _ := h3
  · have e2 : (a:ℝ) = a * √(q:ℝ) / √(q:ℝ) := by field_simp
    rw [e2, div_le_iff₀ hs]
    calc (a:ℝ) * √(q:ℝ) ≤ 2 ^ 93 := h4
      _ = 2 ^ 123 * (1 / 2 ^ 30) := by norm_num
      _ ≤ _ := by gcongr

theorem real_of_rat {a b : ℚ} (h : (a:ℝ) ≤ (b:ℝ)) : a ≤ b := (Rat.cast_le (K := ℝ)).1 h

theorem mn_le (f : Fmt) : minNormal f ≤ 1 / 2 ^ 126 := by
  have := minNormal_le f
  rwa [show pow2 (-126) = 1 / 2 ^ 126 by rw [pow2_eq]; norm_num] at this

theorem mn_le_real (f : Fmt) : ((minNormal f : ℚ) : ℝ) ≤ 1 / 2 ^ 126 := by
  have := (Rat.cast_le (K := ℝ)).2 (mn_le f)
  push_cast at this; exact this

/-- The rounded reciprocal: value, range and error. -/
theorem inv_quot {x xn : FV f} (h : InvOK f q a) (hx : Is x q) (hxn : Is xn a) :
    Is (i 1 / (x * xn)) (invQuot f q a) ∧ 0 < invQuot f q a ∧ invQuot f q a ≤ 2 ^ 122 ∧
    |((invQuot f q a : ℚ) : ℝ) * √(q:ℝ) - 1 / (a * √(q:ℝ))| ≤ 2.2 * uro f / (a * √(q:ℝ)) := by
  obtain ⟨hs, hq, hsq, ha, b1, b2, -, -⟩ := inv_facts h
  have hu := uro_pos_real f
  have hu1 := uro_le f
  have hmn := mn_le f
  have hmn0 := minNormal_pos f
  have b1' : (1:ℚ) / 2 ^ 121 ≤ q * a := real_of_rat (by push_cast; exact b1)
  have b2' : q * a ≤ 2 ^ 123 := real_of_rat (by push_cast; exact b2)
  have hqa0 : 0 < q * a := lt_of_lt_of_le (by positivity) b1'
  have hr1 : Rep f (1 / 2 ^ 121) := by
    rw [show (1:ℚ) / 2 ^ 121 = pow2 (-121) by rw [pow2_eq]; norm_num]
    exact rep_pow2 (by rcases f with ⟨⟨⟩, ⟨⟩⟩ <;> decide)
  have p1 : 1 / 2 ^ 121 ≤ rnd f (q * a) := le_rnd_of_rep hr1 b1'
  have p2 : rnd f (q * a) ≤ 2 ^ 123 := rnd_le_of_rep rep_pow2_nat b2'
  set p := rnd f (q * a) with hp
  have hp0 : 0 < p := lt_of_lt_of_le (by positivity) p1
  have hI : Is (x * xn) p := hx.mul hxn (nov (by
    rw [abs_of_pos hqa0]; norm_num at b2' ⊢; linarith))
  have hi1 : 1 / p ≤ 2 ^ 121 := by
    rw [div_le_iff₀ hp0]; rw [div_le_iff₀ (by positivity)] at p1; linarith
  have hi2 : 1 / 2 ^ 123 ≤ 1 / p := one_div_le_one_div_of_le hp0 p2
  have hip : 0 < 1 / p := by positivity
  have hQ : Is (i 1 / (x * xn)) (invQuot f q a) := by
    rw [i_one]; exact (is_fin 1 false).div hI hp0.ne' (nov (by
      rw [abs_of_pos hip]; norm_num at hi1 ⊢; linarith))
  have hnorm : minNormal f ≤ 1 / p := by
    refine hmn.trans (le_trans ?_ hi2)
    norm_num
  have hQ0 : 0 < invQuot f q a := lt_of_lt_of_le hmn0 (rnd_pos hnorm)
  have hQ1 : invQuot f q a ≤ 2 ^ 122 := rnd_le_of_rep rep_pow2_nat (by
    norm_num at hi1 ⊢; linarith)
  refine ⟨hQ, hQ0, hQ1, ?_⟩
  obtain ⟨δ1, h1, e1⟩ := rnd_rel (f := f) (q := q * a) (by
    rw [abs_of_pos hqa0]; refine hmn.trans (le_trans ?_ b1'); norm_num)
  obtain ⟨δ2, h2, e2⟩ := rnd_rel (f := f) (q := 1 / p) (by rw [abs_of_pos hip]; exact hnorm)
  have e3 : ((invQuot f q a : ℚ) : ℝ) = 1 / (q * a) * ((1 + δ2) / (1 + δ1)) := by
    unfold invQuot
    rw [← hp, e2]
    push_cast
    rw [e1]; push_cast
    have : (0:ℝ) < 1 + δ1 := by have := (abs_le.1 h1).1; linarith
    field_simp
  set t := (a:ℝ) * √(q:ℝ) with ht
  have htp : 0 < t := by positivity
  have e4 : (1:ℝ) / (q * a) * √(q:ℝ) = 1 / t := by
    rw [ht]
    rw [div_mul_eq_mul_div, div_eq_div_iff (by positivity) (by positivity)]
    rw [one_mul, one_mul]
    calc √(q:ℝ) * (a * √(q:ℝ)) = √(q:ℝ) ^ 2 * a := by ring
      _ = q * a := by rw [hsq]
  have e5 : ((invQuot f q a : ℚ) : ℝ) * √(q:ℝ) - 1 / t = 1 / t * ((1 + δ2) / (1 + δ1) - 1) := by
    rw [e3, ← e4]; ring
  rw [e5, abs_mul, abs_of_pos (show 0 < 1 / t by positivity)]
  have e6 : |(1 + δ2) / (1 + δ1) - 1| ≤ 2.2 * uro f := by
    obtain ⟨l1, u1⟩ := abs_le.1 h1
    obtain ⟨l2, u2⟩ := abs_le.1 h2
    have hd : (0:ℝ) < 1 + δ1 := by linarith
    rw [abs_le]
    constructor
    · have : 1 - 2.2 * uro f ≤ (1 + δ2) / (1 + δ1) := by rw [le_div_iff₀ hd]; nlinarith
      linarith
    · have : (1 + δ2) / (1 + δ1) ≤ 1 + 2.2 * uro f := by rw [div_le_iff₀ hd]; nlinarith
      linarith
  calc 1 / t * |(1 + δ2) / (1 + δ1) - 1| ≤ 1 / t * (2.2 * uro f) := by gcongr
    _ = _ := by ring

theorem inv_next {x xn : FV f} (h : InvOK f q a) (hx : Is x q) (hxn : Is xn a) :
    Is (d 0.5 * (xn + i 1 / (x * xn))) (invNext f q a) ∧
    ∃ e δ : ℝ, |e| ≤ 2.5 * uro f / (a * √(q:ℝ)) + (uro f : ℝ) ^ 2 ∧ |δ| ≤ uro f ∧
      (invNext f q a : ℝ) * √(q:ℝ) = Newton.step (a * √(q:ℝ)) e δ := by
  obtain ⟨hs, hq, hsq, ha, -, -, a1, a2⟩ := inv_facts h
  obtain ⟨hQ, hQ0, hQ1, hQe⟩ := inv_quot h hx hxn
  have hu := uro_pos_real f
  have hmn := mn_le f
  have a1' : (1:ℚ) / 2 ^ 121 ≤ a := real_of_rat (by push_cast; exact a1)
  have a2' : a ≤ 2 ^ 123 := real_of_rat (by push_cast; exact a2)
  set y := invQuot f q a with hy
  have hapos := h.apos
  have hS1 : rnd f (a + y) ≤ 2 ^ 124 := rnd_le_of_rep rep_pow2_nat (by
    norm_num at a2' hQ1 ⊢; linarith)
  have hr1 : Rep f (1 / 2 ^ 121) := by
    rw [show (1:ℚ) / 2 ^ 121 = pow2 (-121) by rw [pow2_eq]; norm_num]
    exact rep_pow2 (by rcases f with ⟨⟨⟩, ⟨⟩⟩ <;> decide)
  have hS0 : 1 / 2 ^ 121 ≤ rnd f (a + y) := le_rnd_of_rep hr1 (by linarith)
  have hSp : 0 < rnd f (a + y) := lt_of_lt_of_le (by positivity) hS0
  constructor
  · refine is_d_half.mul (hxn.add hQ (nov ?_)) (nov ?_)
    · rw [abs_of_pos (by linarith)]; norm_num at a2' hQ1 ⊢; linarith
    · rw [abs_of_pos (by linarith)]; norm_num at hS1 ⊢; linarith
  · obtain ⟨δ, hδ, hδe⟩ := rnd_rel (f := f) (q := a + y) (by
      rw [abs_of_pos (by linarith)]; norm_num at hmn a1' ⊢; linarith)
    have hhalf : invNext f q a = 1/2 * rnd f (a + y) :=
      rep_half h.inexact (rep_rnd _ _) (by
        rw [abs_of_pos hSp]; norm_num at hmn hS0 ⊢; linarith)
    refine ⟨(y:ℝ) * √(q:ℝ) - 1 / (a * √(q:ℝ)), δ, hQe.trans ?_, hδ, ?_⟩
    · have h1 : 2.2 * (uro f : ℝ) / (a * √(q:ℝ)) ≤ 2.5 * uro f / (a * √(q:ℝ)) := by
        gcongr; norm_num
      have := sq_nonneg (uro f : ℝ)
      linarith
    · rw [hhalf]
      push_cast
      rw [hδe]
      unfold Newton.step
      push_cast
      ring

theorem inv_stop {x xn : FV f} (h : InvOK f q a) (hx : Is x q) (hxn : Is xn a)
    (hstop : fabs (xn - i 1 / (x * xn)) / (i 1 + xn) < limMin) : |(a:ℝ) * √(q:ℝ) - 1| ≤ 3 * uro f := by
  obtain ⟨hs, hq, hsq, ha, -, -, a1, a2⟩ := inv_facts h
  obtain ⟨hQ, hQ0, hQ1, hQe⟩ := inv_quot h hx hxn
  have hu := uro_pos_real f
  have hu1 := uro_le f
  have hmn := mn_le f
  have hmn0 := minNormal_pos f
  have a2' : a ≤ 2 ^ 123 := real_of_rat (by push_cast; exact a2)
  have hapos := h.apos
  set y := invQuot f q a with hy
  have hone : Rep f 1 := by have := rep_pow2_nat (f := f) (n := 0); simpa using this
  have hDb : |a - y| ≤ 2 ^ 123 := by rw [abs_le]; norm_num at a2' hQ1 ⊢; constructor <;> linarith
  have hD : Is (fabs (xn - i 1 / (x * xn))) |rnd f (a - y)| :=
    (hxn.sub hQ (nov (hDb.trans (by norm_num)))).fabs
  have hDb' : |rnd f (a - y)| ≤ 2 ^ 123 := abs_rnd_le_of_rep rep_pow2_nat hDb
  have h1a : 1 + a ≤ 2 ^ 124 := by norm_num at a2' ⊢; linarith
  have hO : Is (i 1 + xn) (rnd f (1 + a)) := by
    rw [i_one]; exact (is_fin 1 false).add hxn (nov (by
      rw [abs_of_pos (by linarith)]; norm_num at h1a ⊢; linarith))
  have hOl : 1 ≤ rnd f (1 + a) := le_rnd_of_rep hone (by linarith)
  have hOu : rnd f (1 + a) ≤ (1 + a) * (1 + uro f) := (rnd_rel_rat (by linarith)).2
  have hO0 : rnd f (1 + a) ≠ 0 := by linarith
  have hlm : Is (limMin : FV f) (minNormal f) := is_fin _ _
  have hQb : |(|rnd f (a - y)| / rnd f (1 + a))| ≤ 2 ^ 123 := by
    rw [abs_div, abs_abs, abs_of_pos (show 0 < rnd f (1 + a) by linarith),
      div_le_iff₀ (show 0 < rnd f (1 + a) by linarith)]
    norm_num at hDb' ⊢
    nlinarith [abs_nonneg (rnd f (a - y))]
  rw [(hD.div hO hO0 (nov (hQb.trans (by norm_num)))).lt_iff hlm] at hstop
  have h1 : |rnd f (a - y)| / rnd f (1 + a) < minNormal f := by
    by_contra hc; push Not at hc
    exact absurd (rnd_pos hc) (not_le.2 hstop)
  rw [div_lt_iff₀ (by linarith)] at h1
  -- the difference itself is at most a few times as large
  have h2 : |a - y| ≤ 4 * minNormal f * (1 + a) := by
    have hur := uro_lt_rat f
    have hup := uro_pos f
    by_contra hc; push Not at hc
    have hge : minNormal f ≤ |a - y| := by nlinarith
    have herr := rnd_err_rel hge
    have h3 : |a - y| - |rnd f (a - y)| ≤ |rnd f (a - y) - (a - y)| := by
      have := abs_sub_abs_le_abs_sub (a - y) (rnd f (a - y))
      rwa [abs_sub_comm (a - y) (rnd f (a - y))] at this
    have h4 : minNormal f * rnd f (1 + a) ≤ 2 * minNormal f * (1 + a) := by nlinarith
    nlinarith
  have h3 : |(a:ℝ) - y| ≤ 4 * ((minNormal f : ℚ) : ℝ) * (1 + a) := by exact_mod_cast h2
  set t := (a:ℝ) * √(q:ℝ) with ht
  have htp : 0 < t := by positivity
  refine Newton.stop_near hu hu1 htp ?_
  have hmu : 4 * minNormal f * 2 ^ 30 ≤ uro f ^ 2 := by
    have e : 4 * minNormal f * 2 ^ 30 = pow2 (f.emin + f.prec - 1 + 32) := by
      unfold minNormal; rw [pow2_add]; norm_num [pow2_eq]; ring
    rw [e]; unfold uro; rw [sq, ← pow2_add]
    exact pow2_le (by rcases f with ⟨⟨⟩, ⟨⟩⟩ <;> decide)
  have hmu' : 4 * ((minNormal f : ℚ) : ℝ) * 2 ^ 30 ≤ (uro f : ℝ) ^ 2 := by exact_mod_cast hmu
  have hmnr : (0:ℝ) < ((minNormal f : ℚ) : ℝ) := by exact_mod_cast hmn0
  have h5 : |t - y * √(q:ℝ)| ≤ (uro f : ℝ) ^ 2 + (uro f : ℝ) ^ 2 * t := by
    rw [ht, ← sub_mul, abs_mul, abs_of_pos hs]
    have hsh := h.qhi
    have k1 : 4 * ((minNormal f : ℚ) : ℝ) * √(q:ℝ) ≤ (uro f : ℝ) ^ 2 :=
      le_trans (by gcongr) hmu'
    have k2 : 4 * ((minNormal f : ℚ) : ℝ) * 1 ≤ (uro f : ℝ) ^ 2 :=
      le_trans (by gcongr; norm_num) hmu'
    calc |(a:ℝ) - y| * √(q:ℝ) ≤ 4 * ((minNormal f : ℚ) : ℝ) * (1 + a) * √(q:ℝ) := by gcongr
      _ = 4 * ((minNormal f : ℚ) : ℝ) * √(q:ℝ) + 4 * ((minNormal f : ℚ) : ℝ) * 1 * (a * √(q:ℝ)) := by ring
      _ ≤ _ := by gcongr
  have h6 : |t - 1 / t| ≤ |t - y * √(q:ℝ)| + |y * √(q:ℝ) - 1 / t| := by
    have := abs_add_le (t - y * √(q:ℝ)) (y * √(q:ℝ) - 1 / t)
    rwa [sub_add_sub_cancel] at this
  have h8 : 2.2 * (uro f : ℝ) / t ≤ 2.5 * uro f / t := by gcongr; norm_num
  linarith

theorem inv_recur_near {x : FV f} (hx : Is x q) :
    ∀ (left : ℕ) (a : ℚ) (xn : FV f), InvOK f q a → Is xn a →
      1 - 3 * uro f ≤ (a:ℝ) * √(q:ℝ) → (a:ℝ) * √(q:ℝ) ≤ Newton.bnd (uro f) left →
      ∃ r : ℚ, Is (inv_sqrt_recur x left xn) r ∧ |(r:ℝ) * √(q:ℝ) - 1| ≤ 3 * uro f := by
  have hu := uro_pos_real f
  have hu1 := uro_le f
  intro left
  induction left with
  | zero =>
    intro a xn h hxn hlo hhi
    refine ⟨a, ?_, ?_⟩
    · rw [inv_sqrt_recur]; simpa using hxn
    · change _ ≤ 1 + 3 * (uro f : ℝ) at hhi
      rw [abs_le]; constructor <;> linarith
  | succ n ih =>
    intro a xn h hxn hlo hhi
    obtain ⟨hs, hq, hsq, ha, -⟩ := inv_facts h
    rw [inv_sqrt_recur]
    split_ifs with hstop
    · exact ⟨a, hxn, inv_stop h hx hxn hstop⟩
    · obtain ⟨hN, e, δ, he, hδ, hst⟩ := inv_next h hx hxn
      have htp : 0 < (a:ℝ) * √(q:ℝ) := by positivity
      have hl := Newton.step_lo hu hu1 htp he hδ
      have hfar := Newton.step_far hu hu1 hlo he hδ
      have hb := Newton.bnd_step n hu (uro_ge f) hu1 hlo hhi he hδ
      rw [← hst] at hl hfar hb
      have hp : (0:ℝ) < invNext f q a := by
        have : 0 < (invNext f q a : ℝ) * √(q:ℝ) := by linarith
        exact (pos_iff_pos_of_mul_pos this).2 hs
      refine ih (invNext f q a) _ ⟨h.inexact, h.qlo, h.qhi, by exact_mod_cast hp, ?_, ?_⟩ hN hl hb
      · refine le_trans ?_ hl
        have : (1:ℝ) / 2 ^ 91 ≤ 1 / 2 := by norm_num
        linarith
      · have := h.thi
        norm_num at this ⊢; linarith

theorem inv_recur_spec {x : FV f} (hf : f.exact = false) (hx : Is x q)
    (hrep : Rep f q) (hq1 : 1 / 2 ^ 60 ≤ q) (hq2 : q ≤ 2 ^ 60) :
    ∃ r : ℚ, Is (inv_sqrt_recur x 100 (x / i 2)) r ∧ |(r:ℝ) * √(q:ℝ) - 1| ≤ 3 * uro f := by
  have hu := uro_pos_real f
  have hu1 := uro_le f
  have hmn := mn_le f
  have hq0 : 0 < q := lt_of_lt_of_le (by positivity) hq1
  have hq0' : (0:ℝ) < q := by exact_mod_cast hq0
  have hq1' : (1:ℝ) / 2 ^ 60 ≤ q := by
    have := (Rat.cast_le (K := ℝ)).2 hq1
    push_cast at this; exact this
  have hq2' : (q:ℝ) ≤ 2 ^ 60 := by
    have := (Rat.cast_le (K := ℝ)).2 hq2
    push_cast at this; exact this
  have hs1 : (1:ℝ) / 2 ^ 30 ≤ √(q:ℝ) := Real.le_sqrt_of_sq_le (by norm_num at hq1' ⊢; exact hq1')
  have hs2 : √(q:ℝ) ≤ 2 ^ 30 := Real.sqrt_le_iff.2 ⟨by positivity, by norm_num at hq2' ⊢; exact hq2'⟩
  have hs : 0 < √(q:ℝ) := Real.sqrt_pos.2 hq0'
  have hhalf : rnd f (q / 2) = q / 2 := by
    have := rep_half hf hrep (by rw [abs_of_pos hq0]; norm_num at hmn hq1 ⊢; linarith)
    have e : q / 2 = 1 / 2 * q := by ring
    rw [e]; exact this
  have hxn : Is (x / i 2) (q / 2) := by
    have h2 : Is (i 2 : FV f) 2 := by rw [i_two]; exact is_fin _ _
    have := hx.div h2 (by norm_num) (nov (by
      rw [abs_of_pos (by linarith)]; norm_num at hq2 ⊢; linarith))
    rwa [hhalf] at this
  have hok : InvOK f q (q / 2) := by
    refine ⟨hf, hs1, hs2, by linarith, ?_, ?_⟩
    · push_cast
      calc (1:ℝ) / 2 ^ 91 = 1 / 2 ^ 60 / 2 * (1 / 2 ^ 30) := by norm_num
        _ ≤ _ := by gcongr
    · push_cast
      calc (q:ℝ) / 2 * √(q:ℝ) ≤ 2 ^ 60 / 2 * 2 ^ 30 := by gcongr
        _ ≤ _ := by norm_num
  rw [inv_sqrt_recur]
  split_ifs with hstop
  · exact ⟨q / 2, hxn, inv_stop hok hx hxn hstop⟩
  · obtain ⟨hN, e, δ, he, hδ, hst⟩ := inv_next hok hx hxn
    have hlo := hok.tlo
    have hhi' : ((q / 2 : ℚ) : ℝ) * √(q:ℝ) ≤ 2 ^ 89 := by
      push_cast
      calc (q:ℝ) / 2 * √(q:ℝ) ≤ 2 ^ 60 / 2 * 2 ^ 30 := by gcongr
        _ ≤ _ := by norm_num
    set t := ((q / 2 : ℚ) : ℝ) * √(q:ℝ) with ht
    have htp : 0 < t := lt_of_lt_of_le (by positivity) hlo
    have hl := Newton.step_lo hu hu1 htp he hδ
    have hb : Newton.step t e δ ≤ 2 ^ 91 * 2.3 := by
      have hti : 1 / t ≤ 2 ^ 91 := by
        rw [div_le_iff₀ htp]; rw [div_le_iff₀ (by positivity)] at hlo; linarith
      have htip : 0 < 1 / t := by positivity
      obtain ⟨-, e2⟩ := abs_le.1 he
      obtain ⟨d1, d2⟩ := abs_le.1 hδ
      have e3 : 2.5 * (uro f : ℝ) / t = 2.5 * uro f * (1 / t) := by ring
      have e4 : e ≤ 2 ^ 90 := by
        rw [e3] at e2
        have : (uro f : ℝ) ^ 2 ≤ 1 := by nlinarith
        have h7 : 2.5 * (uro f : ℝ) * (1 / t) ≤ 2.5 * (1 / 16777216) * 2 ^ 91 := by gcongr
        have h9 : (2.5:ℝ) * (1 / 16777216) * 2 ^ 91 + 1 ≤ 2 ^ 90 := by norm_num
        linarith
      unfold Newton.step
      have h8 : t + 1 / t + e ≤ 2 ^ 92 := by norm_num at hhi' hti e4 ⊢; linarith
      calc (t + 1 / t + e) * (1 + δ) / 2 ≤ 2 ^ 92 * (1 + 1 / 16777216) / 2 := by
            have : 0 ≤ 1 + δ := by linarith
            gcongr; linarith
        _ ≤ _ := by norm_num
    rw [← hst] at hl hb
    have hp : (0:ℝ) < invNext f q (q / 2) := by
      have : 0 < (invNext f q (q / 2) : ℝ) * √(q:ℝ) := by linarith
      exact (pos_iff_pos_of_mul_pos this).2 hs
    refine inv_recur_near hx 99 _ _ ⟨hf, hs1, hs2, by exact_mod_cast hp, ?_, ?_⟩ hN hl (hb.trans Newton.bnd_99)
    · refine le_trans ?_ hl
      have : (1:ℝ) / 2 ^ 91 ≤ 1 / 2 := by norm_num
      linarith
    · norm_num at hb ⊢; linarith

/-! ## Crude lower bound for large arguments -/

theorem rep_div_pow (hf : f.exact = false) (hrep : Rep f q) (hq : 1 ≤ q) :
    ∀ k : ℕ, k ≤ 101 → Rep f (q / 2 ^ k) := by
  intro k
  induction k with
  | zero => intro _; simpa using hrep
  | succ k ih =>
    intro hk
    have h1 := ih (by omega)
    have hp : (2:ℚ) ^ k ≤ 2 ^ 100 := pow_le_pow_right₀ (by norm_num) (by omega)
    have h0 : (0:ℚ) < 2 ^ k := by positivity
    have h2 : (1:ℚ) / 2 ^ 100 ≤ q / 2 ^ k := by
      rw [div_le_div_iff₀ (by positivity) h0]; nlinarith
    have h3 := rep_half hf h1 (by
      rw [abs_of_pos (by positivity)]
      have := mn_le f
      refine le_trans ?_ h2
      norm_num at this ⊢; linarith)
    have e : q / 2 ^ (k + 1) = 1 / 2 * (q / 2 ^ k) := by rw [pow_succ]; field_simp
    rw [e]; exact h3

theorem inv_recur_large {x : FV f} (hf : f.exact = false) (hx : Is x q) (hrep : Rep f q)
    (hov : overflows f q = false) (hq : 1 ≤ q) :
    ∀ (left k : ℕ) (a : ℚ) (xn : FV f), k + left ≤ 101 → Is xn a → q / 2 ^ k ≤ a →
      a ≤ max (q / 2) (2 ^ 101) →
      ∃ r : ℚ, Is (inv_sqrt_recur x left xn) r ∧ q / 2 ^ (k + left) ≤ r := by
  intro left
  induction left with
  | zero =>
    intro k a xn _ hxn h1 _
    refine ⟨a, ?_, h1⟩
    rw [inv_sqrt_recur]; simpa using hxn
  | succ n ih =>
    intro k a xn hk hxn h1 h2
    have hpk : (0:ℚ) < 2 ^ k := by positivity
    have hpk2 : (2:ℚ) ^ k ≤ 2 ^ 101 := pow_le_pow_right₀ (by norm_num) (by omega)
    have ha : 0 < a := lt_of_lt_of_le (by positivity) h1
    rw [inv_sqrt_recur]
    split_ifs with hstop
    · refine ⟨a, hxn, le_trans ?_ h1⟩
      exact div_le_div_of_nonneg_left (by linarith) hpk (pow_le_pow_right₀ (by norm_num) (by omega))
    · -- the reciprocal lies between 0 and 2^101
      have hY : ∃ y, Is (i 1 / (x * xn)) y ∧ 0 ≤ y ∧ y ≤ 2 ^ 101 := by
        have hqa : (1:ℚ) / 2 ^ 101 ≤ q * a := by
          have : (1:ℚ) / 2 ^ 101 ≤ q / 2 ^ k := by
            rw [div_le_div_iff₀ (by positivity) hpk]; nlinarith
          nlinarith
        have hqa0 : 0 < q * a := by positivity
        obtain ⟨zx, rfl⟩ := hx
        obtain ⟨zn, rfl⟩ := hxn
        rw [fin_mul]
        by_cases ho : overflows f (rnd f (q * a)) = true
        · refine ⟨0, ?_, le_refl _, by positivity⟩
          have : ∀ s, (mk f (q * a) s : FV f) = inf false := by
            intro s; unfold mk; simp [ho, hqa0.le]
          rw [this, i_one]
          exact ⟨false, by change FV.div _ _ = _; simp [FV.div, sign]⟩
        · have ho' : overflows f (rnd f (q * a)) = false := by simpa using ho
          have hr1 : Rep f (1 / 2 ^ 101) := by
            rw [show (1:ℚ) / 2 ^ 101 = pow2 (-101) by rw [pow2_eq]; norm_num]
            exact rep_pow2 (by rcases f with ⟨⟨⟩, ⟨⟩⟩ <;> decide)
          have p1 : 1 / 2 ^ 101 ≤ rnd f (q * a) := le_rnd_of_rep hr1 hqa
          have hp0 : 0 < rnd f (q * a) := lt_of_lt_of_le (by positivity) p1
          have hi1 : 1 / rnd f (q * a) ≤ 2 ^ 101 := by
            rw [div_le_iff₀ hp0]; rw [div_le_iff₀ (by positivity)] at p1; linarith
          have hi0 : 0 ≤ 1 / rnd f (q * a) := by positivity
          refine ⟨rnd f (1 / rnd f (q * a)), ?_, rnd_nonneg hi0, rnd_le_of_rep rep_pow2_nat hi1⟩
          rw [i_one]
          exact (is_fin 1 false).div (is_mk ho') hp0.ne' (nov (by
            rw [abs_of_nonneg hi0]; norm_num at hi1 ⊢; linarith))
      obtain ⟨y, hYi, hy0, hy1⟩ := hY
      set B := max (q / 2) ((2:ℚ) ^ 101) with hB
      have hB2 : (2:ℚ) ^ 101 ≤ B := le_max_right _ _
      have hsum : a + y ≤ max q (2 ^ 102) := by
        have e : max q ((2:ℚ) ^ 102) = 2 * B := by
          rw [hB, mul_max_of_nonneg _ _ (by norm_num : (0:ℚ) ≤ 2)]
          congr 1
          · ring
          · norm_num
        rw [e]; linarith
      have hrM : Rep f (max q (2 ^ 102)) := by
        rcases max_cases q ((2:ℚ) ^ 102) with ⟨h, -⟩ | ⟨h, -⟩ <;> rw [h]
        · exact hrep
        · exact rep_pow2_nat
      have hoM : overflows f (max q (2 ^ 102)) = false := by
        rcases max_cases q ((2:ℚ) ^ 102) with ⟨h, -⟩ | ⟨h, -⟩ <;> rw [h]
        · exact hov
        · exact nov' (by norm_num)
      have hM0 : 0 ≤ max q ((2:ℚ) ^ 102) := le_trans (by linarith) hsum
      have hS := hxn.add hYi (nov_of_lt hrM hoM (by
        rw [abs_of_nonneg (by linarith), abs_of_nonneg hM0]; exact hsum))
      have hSu : rnd f (a + y) ≤ max q (2 ^ 102) := rnd_le_of_rep hrM hsum
      have hSl : q / 2 ^ k ≤ rnd f (a + y) :=
        le_rnd_of_rep (rep_div_pow hf hrep hq k (by omega)) (by linarith)
      have hS0 : 0 < rnd f (a + y) := lt_of_lt_of_le (by positivity) hSl
      have hBr : Rep f B := by
        rcases max_cases (q / 2) ((2:ℚ) ^ 101) with ⟨h, -⟩ | ⟨h, -⟩ <;> rw [hB, h]
        · simpa using rep_div_pow hf hrep hq 1 (by norm_num)
        · exact rep_pow2_nat
      have hMB : max q ((2:ℚ) ^ 102) = 2 * B := by
        rw [hB, mul_max_of_nonneg _ _ (by norm_num : (0:ℚ) ≤ 2)]
        congr 1
        · ring
        · norm_num
      have hN := (is_d_half (f := f)).mul hS (nov_of_lt hrM hoM (by
        rw [abs_of_pos (by linarith), abs_of_nonneg hM0]
        exact le_trans (by linarith) hSu))
      have := ih (k + 1) _ _ (by omega) hN (by
        refine le_rnd_of_rep (rep_div_pow hf hrep hq (k + 1) (by omega)) ?_
        have e : q / 2 ^ (k + 1) = 1 / 2 * (q / 2 ^ k) := by rw [pow_succ]; field_simp
        rw [e]; linarith) (rnd_le_of_rep hBr (by linarith))
      rwa [show k + 1 + n = k + (n + 1) by ring] at this

/-! ## The theorems -/

theorem valid_inv_recur (x : FV f) : ∀ (left : ℕ) (xn : FV f), Valid xn → Valid (inv_sqrt_recur x left xn) := by
  intro left
  induction left with
  | zero => intro xn h; rw [inv_sqrt_recur]; simpa using h
  | succ n ih =>
    intro xn h
    rw [inv_sqrt_recur]
    split_ifs
    · exact h
    · exact ih _ (valid_mul _ _)

theorem inv_sqrt_normal {z : Bool} (hx : Valid (fin q z : FV f)) (hq : minNormal f ≤ q) :
    (|1 - q| < minNormal f ∧ inv_sqrt (fin q z : FV f) = fin q z) ∨
      inv_sqrt (fin q z : FV f) = inv_sqrt_recur (fin q z) 100 (fin q z / i 2) := by
  have hmn := minNormal_pos f
  have hq0 : 0 < q := by linarith
  unfold inv_sqrt inv_sqrt_check
  rw [if_neg (by simp), if_neg (by rw [i_zero]; simp; linarith), if_neg (by simp),
    if_neg (by rw [limMin_gt_fabs, abs_of_pos hq0]; linarith)]
  have hone : Rep f 1 := by have := rep_pow2_nat (f := f) (n := 0); simpa using this
  have hov : overflows f (rnd f (1 - q)) = false := by
    rcases le_total q 1 with h | h
    · exact nov (by rw [abs_of_nonneg (by linarith)]; norm_num; linarith)
    · exact nov_of_lt hx.rep hx.novf (by rw [abs_of_nonpos (by linarith), abs_of_pos hq0]; linarith)
  obtain ⟨w, hw⟩ : Is (i 1 - (fin q z : FV f)) (rnd f (1 - q)) := by
    rw [i_one]; exact (is_fin 1 false).sub (is_fin q z) hov
  rw [hw]
  split_ifs with h
  · left
    rw [limMin_gt_fabs] at h
    refine ⟨?_, rfl⟩
    by_contra hc; push Not at hc
    rcases le_abs.1 hc with hc | hc
    · exact absurd ((rnd_pos hc).trans (le_abs_self _)) (not_le.2 h)
    · have := rnd_pos hc
      rw [rnd_neg] at this
      exact absurd (this.trans (neg_le_abs _)) (not_le.2 h)
  · right; rfl

/-- C28: special values: NaN and everything below zero give NaN, `+inf` gives `+0`, zeros and
positive subnormals give `+inf`, one gives one. -/
theorem C28_special :
    inv_sqrt (nan : FV f) = nan ∧
    (∀ x : FV f, x < i 0 → inv_sqrt x = nan) ∧
    inv_sqrt (inf false : FV f) = fin 0 false ∧
    (∀ (q : ℚ) (z : Bool), 0 ≤ q → q < minNormal f → inv_sqrt (fin q z : FV f) = inf false) ∧
    inv_sqrt (fin 1 false : FV f) = fin 1 false := by
  refine ⟨by simp [inv_sqrt, inv_sqrt_check, limNaN], ?_, ?_, ?_, ?_⟩
  · intro x hx
    unfold inv_sqrt inv_sqrt_check
    split_ifs
    · rfl
    · rfl
  · unfold inv_sqrt inv_sqrt_check
    rw [if_neg (by simp), if_neg (by simp), if_pos (by simp)]; simp
  · intro q z h0 h
    unfold inv_sqrt inv_sqrt_check
    rw [if_neg (by simp), if_neg (by simp; exact h0), if_neg (by simp),
      if_pos (by rw [limMin_gt_fabs, abs_of_nonneg h0]; exact h)]
    rfl
  · have hv := valid_i (f := f) 1
    rw [i_one] at hv
    unfold inv_sqrt inv_sqrt_check
    have hm := minNormal_lt_one f
    have e : (i 1 - fin 1 false : FV f) = fin 0 false := by
      rw [i_one, fin_sub]; simp
    rw [if_neg (by simp), if_neg (by simp), if_neg (by simp),
      if_neg (by rw [limMin_gt_fabs]; norm_num; linarith),
      if_pos (by rw [e, limMin_gt_fabs]; simpa using minNormal_pos f)]

/-- C28: on `[2^-60, 2^60]` the result is within `3 · 2^-p` (relative) of the real `1/√x`, for every
type (`p` significand bits). -/
theorem C28_accurate (hf : f.exact = false) (q : ℚ) (z : Bool) (hx : Valid (fin q z : FV f))
    (hq1 : 1 / 2 ^ 60 ≤ q) (hq2 : q ≤ 2 ^ 60) :
    ∃ r : ℚ, inv_sqrt (fin q z : FV f) = fin r false ∧
      |(r:ℝ) - 1 / √(q:ℝ)| ≤ 3 / 2 ^ f.prec * (1 / √(q:ℝ)) := by
  have hq0 : 0 < q := lt_of_lt_of_le (by positivity) hq1
  have hmn := mn_le f
  have hn : minNormal f ≤ q := by norm_num at hmn hq1; linarith
  have hs := Real.sqrt_pos.2 (show (0:ℝ) < q by exact_mod_cast hq0)
  have hu : 3 * (uro f : ℝ) = 3 / 2 ^ f.prec := by rw [uro_eq]; ring
  have fin' : ∀ r : ℝ, |r * √(q:ℝ) - 1| ≤ 3 * uro f →
      |r - 1 / √(q:ℝ)| ≤ 3 / 2 ^ f.prec * (1 / √(q:ℝ)) := by
    intro r hr
    rw [← hu]
    have e : r - 1 / √(q:ℝ) = (r * √(q:ℝ) - 1) * (1 / √(q:ℝ)) := by field_simp
    rw [e, abs_mul, abs_of_pos (show 0 < 1 / √(q:ℝ) by positivity)]
    gcongr
  rcases inv_sqrt_normal hx hn with ⟨h1, h⟩ | h
  · refine ⟨q, by rw [h, hx.z_false hq0.ne'], fin' q ?_⟩
    have hq' : (0:ℝ) < q := by exact_mod_cast hq0
    have hsq := Real.sq_sqrt hq'.le
    have hc := sqrt_one_close hq0 h1
    have hmu : minNormal f ≤ uro f / 16 := by
      have e : uro f / 16 = pow2 (-(f.prec:ℤ) - 4) := by
        rw [pow2_sub]; unfold uro; norm_num [pow2_eq]
      rw [e]; exact pow2_le (by rcases f with ⟨⟨⟩, ⟨⟩⟩ <;> decide)
    have h2 : |1 - (q:ℝ)| ≤ uro f / 16 := by
      have : |1 - q| ≤ uro f / 16 := h1.le.trans hmu
      exact_mod_cast this
    have hu0 := uro_pos_real f
    have hu1 := uro_le f
    have h3 : |√(q:ℝ) ^ 2 - 1| ≤ (uro f : ℝ) / 16 := by rw [hsq, abs_sub_comm]; exact h2
    have h4 := sq_close hs.le (by linarith) h3
    obtain ⟨l1, r1⟩ := abs_le.1 h2
    obtain ⟨l2, r2⟩ := abs_le.1 h4
    rw [abs_le]
    constructor <;> nlinarith
  · obtain ⟨r, ⟨w, hw⟩, hr⟩ := inv_recur_spec hf (is_fin q z) hx.rep hq1 hq2
    have hv := valid_inv_recur (fin q z) 100 (fin q z / i 2 : FV f) (valid_div _ _)
    rw [hw] at hv
    refine ⟨r, ?_, fin' r hr⟩
    rw [h, hw, hv.z_false]
    rintro rfl
    have hu1 := uro_le f
    have := (abs_le.1 hr).1
    simp at this
    linarith

example : Valid (fin 2 false : FV binary64) ∧
    inv_sqrt (fin 2 false : FV binary64) = fin (6369051672525772 / 2 ^ 53) false := by
  refine ⟨by decide +kernel, by decide +kernel⟩

/-- C28: for every finite `x ≥ 1` of every type the result is at least `x / 2^101`: the iteration
starts at `x/2` and each of the at most 100 steps at best halves the iterate. -/
theorem C28_lower_bound (hf : f.exact = false) (q : ℚ) (z : Bool) (hx : Valid (fin q z : FV f))
    (hq : 1 ≤ q) : ∃ r : ℚ, inv_sqrt (fin q z : FV f) = fin r false ∧ q / 2 ^ 101 ≤ r := by
  have hq0 : 0 < q := by linarith
  have hm := minNormal_lt_one f
  rcases inv_sqrt_normal hx (by linarith) with ⟨h1, h⟩ | h
  · refine ⟨q, by rw [h, hx.z_false hq0.ne'], ?_⟩
    rw [div_le_iff₀ (by positivity)]; norm_num; linarith
  · have hhalf : rnd f (q / 2) = q / 2 := by
      have := rep_div_pow hf hx.rep hq 1 (by norm_num)
      rw [pow_one] at this; exact this
    have h2 : Is (i 2 : FV f) 2 := by rw [i_two]; exact is_fin _ _
    have hxn : Is (fin q z / i 2 : FV f) (q / 2) := by
      have := (is_fin q z).div h2 (by norm_num) (nov_of_lt hx.rep hx.novf (by
        rw [abs_of_pos (by linarith), abs_of_pos hq0]; linarith))
      rwa [hhalf] at this
    obtain ⟨r, ⟨w, hw⟩, hr⟩ := inv_recur_large hf (is_fin q z) hx.rep hx.novf hq 100 1 (q / 2) _
      (by norm_num) hxn (by simp) (le_max_left _ _)
    have hv := valid_inv_recur (fin q z) 100 (fin q z / i 2 : FV f) (valid_div _ _)
    rw [hw] at hv
    have hr' : q / 2 ^ 101 ≤ r := hr
    refine ⟨r, ?_, hr'⟩
    rw [h, hw, hv.z_false]
    rintro rfl
    have : 0 < q / 2 ^ 101 := by positivity
    linarith

/-- C28: hence from `x = 2^(2m)` on, the result is at least `2^(3m-101)` times too large. -/
theorem C28_wrong_by_factor (hf : f.exact = false) (m : ℕ) (q : ℚ) (z : Bool)
    (hx : Valid (fin q z : FV f)) (hq : 2 ^ (2 * m) ≤ q) :
    ∃ r : ℚ, inv_sqrt (fin q z : FV f) = fin r false ∧ 2 ^ (3 * m) / 2 ^ 101 * (1 / √(q:ℝ)) ≤ r := by
  have h1 : (1:ℚ) ≤ 2 ^ (2 * m) := one_le_pow₀ (by norm_num)
  obtain ⟨r, hr, hl⟩ := C28_lower_bound hf q z hx (by linarith)
  refine ⟨r, hr, ?_⟩
  have hq' : (2:ℝ) ^ (2 * m) ≤ q := by
    have := (Rat.cast_le (K := ℝ)).2 hq
    push_cast at this; exact this
  have hq0 : (0:ℝ) < q := lt_of_lt_of_le (by positivity) hq'
  have hl' : (q:ℝ) / 2 ^ 101 ≤ r := by
    have := (Rat.cast_le (K := ℝ)).2 hl
    push_cast at this; exact this
  have hs : (2:ℝ) ^ m ≤ √(q:ℝ) := by
    apply Real.le_sqrt_of_sq_le
    rw [← pow_mul, mul_comm m 2]; exact hq'
  have hs0 : 0 < √(q:ℝ) := lt_of_lt_of_le (by positivity) hs
  refine le_trans ?_ hl'
  rw [mul_one_div, div_div, div_le_div_iff₀ (by positivity) (by positivity)]
  have e : (2:ℝ) ^ (3 * m) = 2 ^ (2 * m) * 2 ^ m := by rw [← pow_add]; congr 1; ring
  rw [e]
  calc (2:ℝ) ^ (2 * m) * 2 ^ m * 2 ^ 101 ≤ q * √(q:ℝ) * 2 ^ 101 := by gcongr
    _ = _ := by ring

/-- `x = 2^120` (a `float`, too): the result is at least `2^79` times too large. -/
example : Valid (fin (2 ^ 120) false : FV binary32) ∧ ((2:ℚ) ^ (2 * 60) ≤ 2 ^ 120) := by
  refine ⟨by decide +kernel, by norm_num⟩

/-- C28: and for small arguments it can be infinite: `inv_sqrt(2^-1000)` is `+inf` for `double`
(the real value is `2^500`). -/
theorem C28_small_overflow :
    inv_sqrt (fin (pow2 (-1000)) false : FV binary64) = inf false := by
  decide +kernel

end Gcem.Props
