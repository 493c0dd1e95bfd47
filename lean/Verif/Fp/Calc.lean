import Verif.Fp.Split
import Mathlib.Data.Real.Basic
import Mathlib.Data.Rat.Cast.Order
import Mathlib.Tactic.FieldSimp

/-!
# A calculus of finite values

`Is v q` says that the value `v` is finite with rational value `q` (the sign of a zero is ignored).
The lemmas follow one floating operation each: the new value is the rounded exact result, provided
that does not overflow.
-/

namespace Gcem
open FV
variable {f : Fmt}

/-- `v` is the finite value `q` (either zero if `q = 0`). -/
def Is (v : FV f) (q : ℚ) : Prop := ∃ z, v = fin q z

theorem is_fin (q : ℚ) (z : Bool) : Is (fin q z : FV f) q := ⟨z, rfl⟩

theorem is_mk {q : ℚ} {zs : Bool} (h : overflows f (rnd f q) = false) : Is (mk f q zs) (rnd f q) := by
  rw [mk_fin h]; exact ⟨_, rfl⟩

namespace Is
variable {v w : FV f} {a b : ℚ}

theorem add (hv : Is v a) (hw : Is w b) (h : overflows f (rnd f (a + b)) = false) :
    Is (v + w) (rnd f (a + b)) := by
  obtain ⟨z, rfl⟩ := hv; obtain ⟨z', rfl⟩ := hw
  rw [fin_add]; exact is_mk h

theorem sub (hv : Is v a) (hw : Is w b) (h : overflows f (rnd f (a - b)) = false) :
    Is (v - w) (rnd f (a - b)) := by
  obtain ⟨z, rfl⟩ := hv; obtain ⟨z', rfl⟩ := hw
  rw [fin_sub]; exact is_mk h

theorem mul (hv : Is v a) (hw : Is w b) (h : overflows f (rnd f (a * b)) = false) :
    Is (v * w) (rnd f (a * b)) := by
  obtain ⟨z, rfl⟩ := hv; obtain ⟨z', rfl⟩ := hw
  rw [fin_mul]; exact is_mk h

theorem div (hv : Is v a) (hw : Is w b) (hb : b ≠ 0) (h : overflows f (rnd f (a / b)) = false) :
    Is (v / w) (rnd f (a / b)) := by
  obtain ⟨z, rfl⟩ := hv; obtain ⟨z', rfl⟩ := hw
  rw [fin_div hb]; exact is_mk h

theorem neg (hv : Is v a) : Is (-v) (-a) := by
  obtain ⟨z, rfl⟩ := hv; exact ⟨_, neg_fin _ _⟩

theorem fabs (hv : Is v a) : Is (fabs v) |a| := by
  obtain ⟨z, rfl⟩ := hv; exact fabs_fin' a z

theorem lt_iff (hv : Is v a) (hw : Is w b) : v < w ↔ a < b := by
  obtain ⟨z, rfl⟩ := hv; obtain ⟨z', rfl⟩ := hw; simp

theorem le_iff (hv : Is v a) (hw : Is w b) : v ≤ w ↔ a ≤ b := by
  obtain ⟨z, rfl⟩ := hv; obtain ⟨z', rfl⟩ := hw; simp

theorem beq (hv : Is v a) (hw : Is w b) : (v == w) = decide (a = b) := by
  obtain ⟨z, rfl⟩ := hv; obtain ⟨z', rfl⟩ := hw; simp

theorem not_nan (hv : Is v a) : is_nan v = false := by obtain ⟨z, rfl⟩ := hv; simp
theorem not_posinf (hv : Is v a) : is_posinf v = false := by obtain ⟨z, rfl⟩ := hv; simp
theorem not_neginf (hv : Is v a) : is_neginf v = false := by obtain ⟨z, rfl⟩ := hv; simp

theorem unique (hv : Is v a) (hv' : Is v b) : a = b := by
  obtain ⟨z, rfl⟩ := hv; obtain ⟨z', h⟩ := hv'; simp at h; exact h.1

theorem cast {g : Fmt} (hv : Is v a) (h : overflows g (rnd g a) = false) :
    Is (FV.cast g v) (rnd g a) := by
  obtain ⟨z, rfl⟩ := hv; exact is_mk h

end Is

/-! ## No overflow -/

theorem rep_pow2_nat {n : ℕ} : Rep f ((2:ℚ) ^ n) := by
  rw [← pow2_nat]; exact rep_pow2 (by have := emin_neg f; omega)

theorem nov_of_lt {q r : ℚ} (hr : Rep f r) (hro : overflows f r = false) (h : |q| ≤ |r|) :
    overflows f (rnd f q) = false := by
  have hr' : Rep f |r| := by
    rcases abs_cases r with ⟨h, -⟩ | ⟨h, -⟩ <;> rw [h]
    · exact hr
    · exact hr.neg
  exact overflows_of_abs_le (abs_rnd_le_of_rep hr' h) (by
    exact overflows_of_abs_le (le_refl _) hro)

/-- Nothing of magnitude at most `2^127` overflows in any of the types. -/
theorem nov {q : ℚ} (h : |q| ≤ 2 ^ 127) : overflows f (rnd f q) = false := by
  refine nov_of_lt (r := 2 ^ 127) rep_pow2_nat ?_ (by
    rw [abs_of_pos (show (0:ℚ) < 2 ^ 127 by positivity)]; exact h)
  rw [overflows_false_iff]
  by_cases hf : f.exact = true
  · left; exact hf
  · right
    have h1 : (2:ℚ) ^ 127 = pow2 127 := by rw [pow2_eq]; norm_cast
    rw [abs_of_pos (by positivity), h1]
    exact pow2_lt (by have := emax_large f; omega)

theorem nov' {q : ℚ} (h : |q| ≤ 2 ^ 127) : overflows f q = false := by
  rw [overflows_false_iff]
  by_cases hf : f.exact = true
  · left; exact hf
  · right
    have h1 : (2:ℚ) ^ 127 = pow2 127 := by rw [pow2_eq]; norm_cast
    refine lt_of_le_of_lt h ?_
    rw [h1]
    exact pow2_lt (by have := emax_large f; omega)

/-! ## Literals -/

theorem is_i {n : ℤ} (h : |n| ≤ 16777216) : Is (i n : FV f) n := by rw [i_small h]; exact is_fin _ _

theorem rep_mono_prec {q : ℚ} {f g : Fmt} {m e : ℤ} (hq : q = m * pow2 e) (hm : |m| ≤ 2 ^ 24)
    (he : -149 ≤ e) : Rep f q ∧ Rep g q := by
  subst hq
  have h : ∀ f : Fmt, Rep f (m * pow2 e) := by
    intro f
    apply rep_of_scaled
    · refine hm.trans ?_; exact two_pow_prec f
    · refine le_trans ?_ he
      rcases f with ⟨⟨⟩, ⟨⟩⟩ <;> decide
  exact ⟨h f, h g⟩

theorem is_d_scaled {q : ℚ} (m e : ℤ) (hq : q = m * pow2 e) (hm : |m| ≤ 2 ^ 24)
    (he : -149 ≤ e) (ho : |q| ≤ 2 ^ 127) : Is (d q : FV f) q := by
  have := rep_mono_prec (f := f) (g := f.dbl) hq hm he
  rw [d_eq this.2 this.1 (nov' ho)]
  exact is_fin _ _

theorem is_d_half : Is (d 0.5 : FV f) (1/2) := by
  have : (0.5 : ℚ) = 1/2 := by norm_num
  rw [this, d_half]; exact is_fin _ _

/-! ## Relative error over the reals -/

theorem uro_le (f : Fmt) : (uro f : ℝ) ≤ 1 / 16777216 := by
  have : uro f ≤ 1 / 16777216 := by
    unfold uro
    have : pow2 (-(f.prec:ℤ)) ≤ pow2 (-24) := pow2_le (by rcases f with ⟨⟨⟩, ⟨⟩⟩ <;> decide)
    have h : pow2 (-24) = 1 / 16777216 := by norm_num [pow2_eq]
    linarith
  have h2 := (Rat.cast_le (K := ℝ)).2 this
  simpa using h2

theorem uro_eq (f : Fmt) : (uro f : ℝ) = 1 / 2 ^ f.prec := by
  have : uro f = 1 / 2 ^ f.prec := by unfold uro; rw [pow2_eq]; simp
  rw [this]; push_cast; rfl

theorem uro_pos_real (f : Fmt) : (0:ℝ) < uro f := by exact_mod_cast uro_pos f

theorem rnd_rel {q : ℚ} (h : minNormal f ≤ |q|) :
    ∃ δ : ℝ, |δ| ≤ uro f ∧ ((rnd f q : ℚ) : ℝ) = q * (1 + δ) := by
  have hq : q ≠ 0 := by rintro rfl; have := minNormal_pos f; simp at h; linarith
  have hq' : (q:ℝ) ≠ 0 := by exact_mod_cast hq
  refine ⟨((rnd f q : ℚ) : ℝ) / q - 1, ?_, by rw [add_sub_cancel, mul_div_cancel₀ _ hq']⟩
  have h1 := rnd_err_rel h
  have h2 : |((rnd f q : ℚ) : ℝ) - q| ≤ uro f * |(q:ℝ)| := by exact_mod_cast h1
  have : ((rnd f q : ℚ) : ℝ) / q - 1 = (((rnd f q : ℚ) : ℝ) - q) / q := by field_simp
  rw [this, abs_div, div_le_iff₀ (abs_pos.2 hq')]
  exact h2

theorem rnd_pos {q : ℚ} (h : minNormal f ≤ q) : minNormal f ≤ rnd f q := by
  refine le_rnd_of_rep (rep_pow2 ?_) h
  rcases f with ⟨⟨⟩, ⟨⟩⟩ <;> decide

theorem minNormal_le (f : Fmt) : minNormal f ≤ pow2 (-126) := by
  unfold minNormal; apply pow2_le; rcases f with ⟨⟨⟩, ⟨⟩⟩ <;> decide

/-- Halving is exact above twice the least normal value. -/
theorem rep_half {q : ℚ} (hf : f.exact = false) (hr : Rep f q) (h : 2 * minNormal f ≤ |q|) :
    Rep f (1/2 * q) := by
  have hq : q ≠ 0 := by rintro rfl; have := minNormal_pos f; simp at h; linarith
  obtain ⟨m, hm, hmp⟩ := rep_scaled hf hq hr
  have he : fexp f q = ilog2 q - (f.prec - 1) ∧ f.emin + 1 ≤ fexp f q := by
    have h1 : pow2 (f.emin + f.prec) ≤ |q| := by
      refine le_trans (le_of_eq ?_) h
      unfold minNormal; rw [← pow2_succ]; congr 1; ring
    have h2 := (le_ilog2_iff hq).2 h1
    unfold fexp
    constructor <;> omega
  have h2 : 1/2 * q = (m : ℚ) * pow2 (fexp f q - 1) := by
    have h3 := pow2_succ (fexp f q - 1)
    rw [sub_add_cancel] at h3
    generalize fexp f q = e at *
    rw [hm, h3]; ring
  rw [h2]
  exact rep_of_scaled hmp.le (by omega)

end Gcem
