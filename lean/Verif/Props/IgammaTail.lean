import Verif.Props.BetaAcc
import Verif.Analysis.UpperGamma

/-!
# C78: accuracy of incomplete_gamma in the region of the upper continued fraction
-/

namespace Gcem.Props
open Gcem FV UG
variable {f : Fmt}

/-- bound for the factor by which a relative error is carried from depth `d+1` to depth `d` -/
def igB (d : ℕ) : ℚ := (d:ℚ) / (d + 10) * max (9 / 11) ((d:ℚ) / (d + 9))

/-- what is left of the truncation error at depth `d` -/
def igX : ℕ → ℚ
  | 0 => igB 100
  | n + 1 => (1 + 1 / 10 ^ 7) * igB (99 - n) * igX n

theorem igX_small : igX 99 ≤ 1 / 10 ^ 20 := by decide +kernel

theorem igB_step : ∀ d < 100, (1 + 1 / 10 ^ 7) * (igB d * (d + 7)) + (303 / 100 + 506 / 100 * igB d) ≤ (d : ℚ) + 6 := by decide +kernel

theorem igB_nonneg (d : ℕ) : 0 ≤ igB d := by unfold igB; positivity
theorem igB_le_one (d : ℕ) : igB d ≤ 1 := by
  unfold igB
  have h1 : (d:ℚ) / (d + 10) ≤ 1 := by rw [div_le_one (by positivity)]; linarith
  have h2 : max (9 / 11) ((d:ℚ) / (d + 9)) ≤ 1 := max_le (by norm_num) (by rw [div_le_one (by positivity)]; linarith)
  exact mul_le_one₀ h1 (by positivity) h2

/-- the region -/
structure IgReg (a z : ℝ) : Prop where
  a0 : 1 / 2 ≤ a
  az : a + 10 ≤ z
  or : a < 10 ∨ 3 * a ≤ z

namespace IgReg
variable {a z : ℝ}

theorem a0' (h : IgReg a z) : 0 < a := by linarith [h.a0]
theorem z0' (h : IgReg a z) : 0 < z := by linarith [h.a0, h.az]

theorem T_ge9 (h : IgReg a z) {d : ℕ} (hd : 1 ≤ d) : (d:ℝ) + 9 ≤ T a z d ∧ (d ≤ a → 2 * d - 1 - a + z ≤ T a z d) := by
  have h1 := T_ge h.a0' h.z0' d hd
  have h2 := T_rec h.a0' h.z0' hd
  have hp := T_pos h.a0' h.z0' (d + 1)
  have hd1 : (1:ℝ) ≤ d := by exact_mod_cast hd
  have := h.az
  have := h.a0
  have h3 : d ≤ a → 2 * d - 1 - a + z ≤ T a z d := by
    intro hda
    rw [h2]
    have : 0 ≤ d * (a - d) / T a z (d + 1) := div_nonneg (mul_nonneg (by positivity) (by linarith)) hp.le
    linarith
  refine ⟨?_, h3⟩
  rcases le_total (d:ℝ) a with hda | hda
  · linarith [h3 hda]
  · have : d * (d - a) / T a z (d + 1) ≤ d - a := by
      rw [div_le_iff₀ hp, mul_comm]
      exact mul_le_mul_of_nonneg_left h1 (by linarith)
    have e : d * (a - d) / T a z (d + 1) = -(d * (d - a) / T a z (d + 1)) := by ring
    rw [h2, e]; linarith

/-- the amplification factor -/
theorem amp (h : IgReg a z) {d : ℕ} (hd : 1 ≤ d) {τ : ℝ} (hτ : (d:ℝ) + 10 ≤ τ) : |d * (a - d)| / τ ≤ (igB d : ℝ) * T a z d := by
  obtain ⟨h1, h2⟩ := h.T_ge9 hd
  have hp := T_pos h.a0' h.z0' d
  have hd1 : (1:ℝ) ≤ d := by exact_mod_cast hd
  have := h.az
  have := h.a0
  have h3 : |a - d| ≤ max (9 / 11) ((d:ℝ) / (d + 9)) * T a z d := by
    rcases le_total (d:ℝ) a with hda | hda
    · rw [abs_of_nonneg (by linarith)]
      have h2 := h2 hda
      refine le_trans ?_ (mul_le_mul_of_nonneg_right (le_max_left _ _) hp.le)
      rcases h.or with h4 | h4 <;> linarith
    · rw [abs_of_nonpos (by linarith)]
      refine le_trans ?_ (mul_le_mul_of_nonneg_right (le_max_right _ _) hp.le)
      rw [div_mul_eq_mul_div, le_div_iff₀ (by linarith)]
      nlinarith
  rw [div_le_iff₀ (by linarith), abs_mul, abs_of_nonneg (by linarith : (0:ℝ) ≤ d)]
  unfold igB
  push_cast
  generalize T a z d = t at *
  generalize max (9 / 11) ((d:ℝ) / (d + 9)) = M at *
  have hM : 0 ≤ M * t := (abs_nonneg _).trans h3
  calc (d:ℝ) * |a - d| ≤ d * (M * t) := by gcongr
    _ = d / (d + 10) * M * t * (d + 10) := by field_simp
    _ ≤ d / (d + 10) * M * t * τ := by
      have : 0 ≤ (d:ℝ) / (d + 10) * (M * t) := by positivity
      rw [mul_assoc ((d:ℝ) / (d + 10))]
      gcongr

end IgReg

/-- one level of the recursion, in real numbers -/
theorem ig_step_real {u B b N t t' τ β q r ρ : ℝ} (hu : 0 < u) (hu7 : u ≤ 1 / 10 ^ 7) (hB0 : 0 ≤ B)
    (ht : t = b + N / t') (ht10 : 10 ≤ t) (ht' : 0 < t') (hτ : 0 < τ) (hβ : |β - b| ≤ 201 / 100 * u * b)
    (hq : |q - N / τ| ≤ 302 / 100 * u * (|N| / τ) + u / 500) (hr : |r - (β + q)| ≤ u * |β + q|)
    (hρ0 : 0 ≤ ρ) (hρ : |τ - t'| ≤ ρ * t') (h1 : |N| / τ ≤ B * t) (h2 : |N| / t' ≤ B * t) :
    |r - t| ≤ ((1 + u) * (B * ρ) + (303 / 100 + 506 / 100 * B) * u) * t := by
  have e1 : |N / τ - N / t'| ≤ |N| / τ * ρ := by
    rw [show N / τ - N / t' = N / τ * ((t' - τ) / t') by field_simp, abs_mul, abs_div, abs_of_pos hτ, abs_div, abs_of_pos ht', abs_sub_comm]
    gcongr
    rw [div_le_iff₀ ht']; exact hρ
  have e2 : b ≤ (1 + B) * t := by
    have := neg_abs_le (N / t')
    rw [abs_div, abs_of_pos ht'] at this
    linarith
  have hΔ : |β + q - t| ≤ (2011 / 1000 + 503 / 100 * B) * u * t + B * ρ * t := by
    have a1 := abs_add_le (β - b) (q - N / t')
    rw [show β - b + (q - N / t') = β + q - t by rw [ht]; ring] at a1
    have a2 := abs_sub_le q (N / τ) (N / t')
    have a3 : u * b ≤ u * ((1 + B) * t) := by gcongr
    have a4 : u * (|N| / τ) ≤ u * (B * t) := by gcongr
    have a5 : |N| / τ * ρ ≤ B * t * ρ := by gcongr
    have a6 : u * 10 ≤ u * t := by gcongr
    nlinarith
  have h3 : |β + q| ≤ |β + q - t| + t := by
    have := abs_add_le (β + q - t) t
    rw [sub_add_cancel, abs_of_pos (show 0 < t by linarith)] at this; exact this
  have h4 := abs_sub_le r (β + q) t
  have h5 : u * |β + q| ≤ u * (|β + q - t| + t) := by gcongr
  have h6 : (1 + u) * |β + q - t| ≤ (1 + u) * ((2011 / 1000 + 503 / 100 * B) * u * t + B * ρ * t) := by gcongr
  have h7 : u * ((2011 / 1000 + 503 / 100 * B) * u * t) ≤ 1 / 10 ^ 7 * ((2011 / 1000 + 503 / 100 * B) * u * t) := by gcongr
  have h8 : 0 ≤ u * t := by positivity
  have h9 : 0 ≤ B * (u * t) := by positivity
  norm_num at h7
  nlinarith

/-- the leading term `2d - 1 - a + z` -/
theorem ig_lead {a z : ℚ} {wa wz : Bool} (ha : Valid (fin a wa : FV f)) (hz : Valid (fin z wz : FV f)) (hR : IgReg a z) (hz2 : z ≤ 2 ^ 20)
    {d : ℕ} (hd : 1 ≤ d) (hd2 : d ≤ 100) :
    ∃ β : ℚ, Rep f β ∧ Is (i (1 + ((d:ℤ) - 1) * 2) - fin a wa + fin z wz : FV f) β ∧
      |(β:ℝ) - (2 * d - 1 - a + z)| ≤ 201 / 100 * uro f * (2 * d - 1 - a + z) := by
  have hu := uro_pos_real f
  have hu7 := uro7_real f
  have hd1 : (1:ℝ) ≤ d := by exact_mod_cast hd
  have hd2' : (d:ℝ) ≤ 100 := by exact_mod_cast hd2
  have hz2' : (z:ℝ) ≤ 2 ^ 20 := by have := (Rat.cast_le (K := ℝ)).2 hz2; push_cast at this; exact this
  have h1 := hR.a0
  have h2 := hR.az
  have i1 := is_i (f := f) (n := 1 + ((d:ℤ) - 1) * 2) (by rw [abs_le]; constructor <;> omega)
  have hr1 : Rep f ((1 + ((d:ℤ) - 1) * 2 : ℤ) : ℚ) := rep_int (by
    have : (16777216:ℤ) ≤ 2 ^ f.prec := two_pow_prec f
    rw [abs_le]; constructor <;> omega)
  have hn1 : Rep f (-a) := ha.rep.neg
  have b1 : |(2 * d - 1 - a : ℝ)| ≤ 2 * d - 1 - a + z := by
    rw [abs_le]; constructor
    · rcases hR.or with h | h <;> linarith
    · linarith
  have hz20 : (2:ℝ) ^ 20 = 1048576 := by norm_num
  rw [hz20] at hz2'
  have bb : (2 * d - 1 - a + z : ℝ) ≤ 2 ^ 21 := by norm_num; linarith
  have i2 := i1.sub (is_fin (f := f) a wa) (nov (by
    rw [← Rat.cast_le (K := ℝ)]
    push_cast
    rw [show (1 + ((d:ℝ) - 1) * 2 - a) = 2 * d - 1 - a by ring]
    refine b1.trans (bb.trans (by norm_num))))
  have e1 := rnd_add_real hr1 hn1
  rw [← sub_eq_add_neg] at e1
  generalize hE : rnd f (((1 + ((d:ℤ) - 1) * 2 : ℤ) : ℚ) - a) = E at *
  push_cast at e1
  rw [← sub_eq_add_neg, show (1 + ((d:ℝ) - 1) * 2 - a) = 2 * d - 1 - a by ring] at e1
  have hEr : Rep f E := hE ▸ rep_rnd _ _
  have e2 := rnd_add_real hEr hz.rep
  have e3 : |(E + z : ℝ) - (2 * d - 1 - a + z)| ≤ uro f * (2 * d - 1 - a + z) := by
    rw [show (E + z : ℝ) - (2 * d - 1 - a + z) = E - (2 * d - 1 - a) by ring]
    exact e1.trans (by gcongr)
  generalize hb : (2 * d - 1 - a + z : ℝ) = b at *
  have hb0 : 0 < b := by rw [← hb]; linarith
  have hub : uro f * b ≤ 1 / 10 ^ 7 * b := by gcongr
  have e4 : |(E + z : ℝ)| ≤ b + uro f * b := by
    have := abs_add_le ((E + z : ℝ) - b) b
    rw [sub_add_cancel, abs_of_pos hb0] at this
    linarith
  refine ⟨rnd f (E + z), rep_rnd _ _, i2.add (is_fin z wz) (nov ?_), ?_⟩
  · rw [← Rat.cast_le (K := ℝ)]; push_cast
    norm_num at hub bb ⊢; linarith
  · have := abs_sub_le ((rnd f (E + z) : ℚ) : ℝ) (E + z) b
    have h5 : uro f * |(E + z : ℝ)| ≤ uro f * (b + uro f * b) := by gcongr
    have h6 : uro f * (uro f * b) ≤ uro f * (1 / 10 ^ 7 * b) := by gcongr
    norm_num at h6 ⊢
    have : 0 < uro f * b := by positivity
    linarith

/-- the quotient `d (a - d) / τ` -/
theorem ig_quot {a τ : ℚ} {wa : Bool} (ha : Valid (fin a wa : FV f)) (ha0 : 0 ≤ a) (ha2 : a ≤ 2 ^ 20)
    {d : ℕ} (hd : 1 ≤ d) (hd2 : d ≤ 100) {t : FV f} (it : Is t τ) (hτ : (d:ℚ) + 10 ≤ τ) :
    ∃ q : ℚ, Rep f q ∧ Is (i d * (fin a wa - i d) / t : FV f) q ∧
      |(q:ℝ) - (d * (a - d)) / τ| ≤ 302 / 100 * uro f * (|(d * (a - d) : ℝ)| / τ) + uro f / 500 := by
  have hu := uro_pos_real f
  have hu7 := uro7_real f
  have hd1 : (1:ℚ) ≤ d := by exact_mod_cast hd
  have hd2' : (d:ℚ) ≤ 100 := by exact_mod_cast hd2
  have hd1r : (1:ℝ) ≤ d := by exact_mod_cast hd
  have hd2r : (d:ℝ) ≤ 100 := by exact_mod_cast hd2
  have ha0' : (0:ℝ) ≤ a := by exact_mod_cast ha0
  have ha2' : (a:ℝ) ≤ 1048576 := by have := (Rat.cast_le (K := ℝ)).2 ha2; push_cast at this; norm_num at this; exact this
  have hτ' : (d:ℝ) + 10 ≤ τ := by have := (Rat.cast_le (K := ℝ)).2 hτ; push_cast at this; exact this
  have id' : Is (i (d:ℤ) : FV f) (d:ℚ) := by
    have := is_i (f := f) (n := d) (by rw [abs_le]; constructor <;> omega)
    push_cast at this; exact this
  have hrd : Rep f (d:ℚ) := by
    have := rep_int (f := f) (n := d) (by
      have : (16777216:ℤ) ≤ 2 ^ f.prec := two_pow_prec f
      rw [abs_le]; constructor <;> omega)
    push_cast at this; exact this
  have babs : |(a - d : ℝ)| ≤ 1048676 := by rw [abs_le]; constructor <;> linarith
  have i1 := (is_fin (f := f) a wa).sub id' (nov (by
    rw [← Rat.cast_le (K := ℝ)]; push_cast; refine babs.trans (by norm_num)))
  have e1 := rnd_add_real ha.rep hrd.neg
  rw [← sub_eq_add_neg] at e1
  push_cast at e1
  rw [← sub_eq_add_neg] at e1
  generalize rnd f (a - d) = c at *
  have hc : |(c:ℝ)| ≤ (1 + uro f) * |(a - d : ℝ)| := by
    have := abs_add_le ((c:ℝ) - (a - d)) (a - d); rw [sub_add_cancel] at this; linarith
  have e2 := rnd_all_real f (d * c)
  push_cast at e2
  rw [abs_mul, abs_of_nonneg (show (0:ℝ) ≤ d by linarith)] at e2
  have hN : |(d * (a - d) : ℝ)| = d * |(a - d : ℝ)| := by rw [abs_mul, abs_of_nonneg (by linarith)]
  rw [hN]
  generalize hA : |(a - d : ℝ)| = A at *
  have hA0 : 0 ≤ A := hA ▸ abs_nonneg _
  have hA1 : uro f * A ≤ 1 / 10 ^ 7 * A := by gcongr
  have hdc : (d:ℝ) * |(c:ℝ)| ≤ d * ((1 + uro f) * A) := by gcongr
  have hdA : (d:ℝ) * A ≤ 100 * 1048676 := by gcongr
  have hdA0 : 0 ≤ (d:ℝ) * A := by positivity
  have huA : uro f * (d * A) ≤ 1 / 10 ^ 7 * (d * A) := by gcongr
  have i2 := id'.mul i1 (nov (by
    rw [← Rat.cast_le (K := ℝ)]; push_cast
    rw [abs_mul, abs_of_nonneg (show (0:ℝ) ≤ d by linarith)]
    norm_num at huA ⊢; linarith))
  generalize rnd f (d * c) = n at *
  have e3 : |(n:ℝ) - d * (a - d)| ≤ 2001 / 1000 * uro f * (d * A) + uro f / 1000 := by
    have h1 := abs_sub_le (n:ℝ) (d * c) (d * (a - d))
    rw [show (d * c - d * (a - d) : ℝ) = d * (c - (a - d)) by ring, abs_mul, abs_of_nonneg (show (0:ℝ) ≤ d by linarith)] at h1
    have h2 : (d:ℝ) * |(c - (a - d) : ℝ)| ≤ d * (uro f * A) := by gcongr
    have h3 : uro f * (d * |(c:ℝ)|) ≤ uro f * (d * ((1 + uro f) * A)) := by gcongr
    have h4 : uro f * (uro f * (d * A)) ≤ uro f * (1 / 10 ^ 7 * (d * A)) := by gcongr
    norm_num at h4 ⊢
    have : 0 ≤ uro f * (d * A) := by positivity
    linarith
  have hn : |(n:ℝ)| ≤ 1001 / 1000 * (d * A) + uro f / 1000 := by
    have := abs_add_le ((n:ℝ) - d * (a - d)) (d * (a - d)); rw [sub_add_cancel, hN] at this
    norm_num at huA; linarith
  have hτ0 : (0:ℝ) < τ := by linarith
  have hτ11 : (11:ℝ) ≤ τ := by linarith
  have i3 := i2.div it (by have : (0:ℚ) < τ := by linarith
                           exact this.ne') (nov (by
    rw [← Rat.cast_le (K := ℝ)]; push_cast
    rw [abs_div, abs_of_pos hτ0]
    refine (div_le_self (abs_nonneg _) (by linarith)).trans ?_
    norm_num at hu7 ⊢; linarith))
  refine ⟨_, rep_rnd _ _, i3, ?_⟩
  have e4 := rnd_all_real f (n / τ)
  push_cast at e4
  rw [abs_div, abs_of_pos hτ0] at e4
  have e5 := abs_sub_le (((rnd f (n / τ) : ℚ) : ℝ)) (n / τ) (d * (a - d) / τ)
  rw [← sub_div, abs_div _ (τ:ℝ), abs_of_pos hτ0] at e5
  have e6 : |(n:ℝ) - d * (a - d)| / τ ≤ (2001 / 1000 * uro f * (d * A) + uro f / 1000) / τ := by gcongr
  have e7 : uro f * (|(n:ℝ)| / τ) ≤ uro f * ((1001 / 1000 * (d * A) + uro f / 1000) / τ) := by gcongr
  have e8 : (uro f : ℝ) / 1000 / τ ≤ uro f / 1000 / 11 := by gcongr
  have e9 : (uro f : ℝ) * (uro f / 1000 / τ) ≤ 1 * (uro f / 1000 / τ) := by
    have : 0 ≤ uro f / 1000 / (τ:ℝ) := by positivity
    gcongr; norm_num at hu7; linarith
  rw [add_div] at e6 e7
  have g1 : 2001 / 1000 * uro f * (d * A) / τ = 2001 / 1000 * (uro f * (d * A / (τ:ℝ))) := by ring
  have g2 : (1001 / 1000 * (d * A) / τ : ℝ) = 1001 / 1000 * (d * A / (τ:ℝ)) := by ring
  rw [g1] at e6
  rw [g2] at e7
  have g3 : 0 ≤ uro f * (d * A / (τ:ℝ)) := by positivity
  linarith

/-- the computed values stay above `d + 9` -/
theorem ig_lower {u a z b β q τ r : ℝ} {d : ℕ} (hR : IgReg a z) (hu : 0 < u) (hu7 : u ≤ 1 / 10 ^ 7) (hd : 1 ≤ d) (hd2 : d ≤ 100)
    (hb : b = 2 * d - 1 - a + z) (hβ : |β - b| ≤ 201 / 100 * u * b) (hτ : (d:ℝ) + 10 ≤ τ)
    (hq : |q - (d * (a - d)) / τ| ≤ 302 / 100 * u * (|(d * (a - d) : ℝ)| / τ) + u / 500) (hr : |r - (β + q)| ≤ u * |β + q|) :
    (d:ℝ) + 9 ≤ r := by
  have h1 := hR.a0
  have h2 := hR.az
  have hd1r : (1:ℝ) ≤ d := by exact_mod_cast hd
  have hd2r : (d:ℝ) ≤ 100 := by exact_mod_cast hd2
  have b1 := (abs_le.1 hβ).1
  have q1 := (abs_le.1 hq).1
  have hτ0 : 0 < τ := by linarith
  have hb9 : 2 * (d:ℝ) + 9 ≤ b := by linarith
  have hub : u * b ≤ 1 / 10 ^ 7 * b := mul_le_mul_of_nonneg_right hu7 (by linarith)
  norm_num at hub
  have key : (d:ℝ) + 93 / 10 ≤ β + q := by
    rcases le_total (d:ℝ) a with hda | hda
    · have hN : 0 ≤ (d * (a - d) : ℝ) / τ := div_nonneg (mul_nonneg (by linarith) (by linarith)) hτ0.le
      have e : |(d * (a - d) : ℝ)| / τ = (d * (a - d) : ℝ) / τ := by rw [abs_of_nonneg (mul_nonneg (by linarith) (by linarith))]
      rw [e] at q1
      have : u * ((d * (a - d) : ℝ) / τ) ≤ 1 / 10 ^ 7 * ((d * (a - d) : ℝ) / τ) := by gcongr
      norm_num at this hu7
      linarith
    · have e : (d * (a - d) : ℝ) = -(d * (d - a)) := by ring
      have hN0 : 0 ≤ (d * (d - a) : ℝ) := mul_nonneg (by linarith) (by linarith)
      have hN : (d * (d - a) : ℝ) / τ ≤ d - a := by
        rw [div_le_iff₀ hτ0, mul_comm]
        exact mul_le_mul_of_nonneg_left (by linarith) (by linarith)
      rw [e, abs_neg, abs_of_nonneg hN0, neg_div] at q1
      have h3 : u * ((d * (d - a) : ℝ) / τ) ≤ u * (d - a) := by gcongr
      have h4 : u * (d - a) ≤ 1 / 10 ^ 7 * 100 := by
        have : (d - a : ℝ) ≤ 100 := by linarith
        have h0 : (0:ℝ) ≤ d - a := by linarith
        gcongr
      norm_num at h4 hu7
      linarith
  rw [abs_of_nonneg (show 0 ≤ β + q by linarith)] at hr
  have r1 := (abs_le.1 hr).1
  have : u * (β + q) ≤ 1 / 10 ^ 7 * (β + q) := by
    have : 0 ≤ β + q := by linarith
    gcongr
  norm_num at this
  linarith

theorem ig_cf {a z : ℚ} {wa wz : Bool} (ha : Valid (fin a wa : FV f)) (hz : Valid (fin z wz : FV f))
    (hR : IgReg a z) (hz2 : z ≤ 2 ^ 20) : ∀ n : ℕ, n ≤ 99 →
    ∃ τ : ℚ, Is (incomplete_gamma_cf_2_recur (fin a wa : FV f) (fin z wz) (100 - n)) τ ∧ ((100 - n : ℕ) : ℝ) + 9 ≤ τ ∧
      |(τ:ℝ) - T a z (100 - n)| ≤ ((((100 - n : ℕ) : ℝ) + 6) * uro f + igX n) * T a z (100 - n) := by
  have hu := uro_pos_real f
  have hu7 := uro7_real f
  have h1 := hR.a0
  have h2 := hR.az
  have hz2' : (z:ℝ) ≤ 1048576 := by have := (Rat.cast_le (K := ℝ)).2 hz2; push_cast at this; norm_num at this; exact this
  have ha0 : 0 ≤ a := by have : (0:ℝ) ≤ a := by linarith
                         exact_mod_cast this
  have ha2 : a ≤ 2 ^ 20 := by
    have : (a:ℝ) ≤ 1048576 := by linarith
    rw [← Rat.cast_le (K := ℝ)]; push_cast; norm_num; exact this
  intro n
  induction n with
  | zero =>
    intro _
    obtain ⟨β, -, iβ, eβ⟩ := ig_lead ha hz hR hz2 (d := 100) (by norm_num) le_rfl
    have hT := T_rec hR.a0' hR.z0' (d := 100) (by norm_num)
    have hT9 := (hR.T_ge9 (d := 100) (by norm_num)).1
    have hT9' := (hR.T_ge9 (d := 101) (by norm_num)).1
    have hamp := hR.amp (d := 100) (by norm_num) (τ := T a z 101) (by push_cast at hT9' ⊢; linarith)
    have hB1 : (igB 100 : ℝ) ≤ 1 := by exact_mod_cast igB_le_one 100
    rw [show (100 - 0 : ℕ) = 100 from rfl]
    generalize hb : (2 * ((100:ℕ):ℝ) - 1 - a + z) = b at *
    have hp := T_pos hR.a0' hR.z0' 101
    have hb9 : 209 ≤ b := by rw [← hb]; push_cast; linarith
    have hub : uro f * b ≤ 1 / 10 ^ 7 * b := by gcongr
    have bβ := abs_le.1 eβ
    refine ⟨β, ?_, ?_, ?_⟩
    · rw [incomplete_gamma_cf_2_recur, if_neg (by norm_num)]; exact iβ
    · push_cast; norm_num at hub; linarith
    · rw [show (100 + 1 : ℕ) = 101 from rfl] at hT
      generalize T a z 100 = t at *
      generalize T a z 101 = t' at *
      have e1 : |b - t| ≤ igB 100 * t := by
        rw [hT, show b - (b + ((100:ℕ):ℝ) * (a - ((100:ℕ):ℝ)) / t') = -(((100:ℕ):ℝ) * (a - ((100:ℕ):ℝ)) / t') by ring, abs_neg, abs_div, abs_of_pos hp, ← hT]
        exact hamp
      have e2 := abs_sub_le (β:ℝ) b t
      have e3 : b ≤ 2 * t := by
        have := (abs_le.1 e1).2
        have : (igB 100 : ℝ) * t ≤ 1 * t := by
          have : 0 ≤ t := by push_cast at hT9; linarith
          gcongr
        linarith
      have e4 : uro f * b ≤ uro f * (2 * t) := by gcongr
      have e5 : 0 ≤ uro f * t := by
        have : 0 ≤ t := by push_cast at hT9; linarith
        positivity
      show |(β:ℝ) - t| ≤ ((((100:ℕ):ℝ) + 6) * uro f + (igB 100 : ℝ)) * t
      push_cast at e1 ⊢
      linarith
  | succ n ih =>
    intro hn
    obtain ⟨τ, iτ, hτ, hρ⟩ := ih (by omega)
    obtain ⟨d, hdn⟩ : ∃ d, 100 - (n + 1) = d := ⟨_, rfl⟩
    have hdn' : 100 - n = d + 1 := by omega
    have hd : 1 ≤ d := by omega
    have hd2 : d < 100 := by omega
    have hd9 : 99 - n = d := by omega
    rw [hdn'] at iτ hτ hρ
    rw [hdn]
    have hτ' : (d:ℚ) + 10 ≤ τ := by
      rw [← Rat.cast_le (K := ℝ)]; push_cast at hτ ⊢; linarith
    have hτr : (d:ℝ) + 10 ≤ τ := by push_cast at hτ; linarith
    obtain ⟨β, rβ, iβ, eβ⟩ := ig_lead ha hz hR hz2 hd hd2.le
    obtain ⟨q, rq, iq, eq⟩ := ig_quot ha ha0 ha2 hd hd2.le iτ hτ'
    have er := rnd_add_real rβ rq
    have hT := T_rec hR.a0' hR.z0' hd
    have hT9 := (hR.T_ge9 hd).1
    have hT9' := (hR.T_ge9 (d := d + 1) (by omega)).1
    have hamp' := hR.amp hd (τ := T a z (d + 1)) (by push_cast at hT9' ⊢; linarith)
    have hamp := hR.amp hd (τ := τ) hτr
    have hX0 : ∀ n, (0:ℚ) ≤ igX n := by
      intro n
      induction n with
      | zero => exact igB_nonneg _
      | succ n ih => exact mul_nonneg (mul_nonneg (by norm_num) (igB_nonneg _)) ih
    have hX : (0:ℝ) ≤ igX n := by exact_mod_cast hX0 n
    have hB0 : (0:ℝ) ≤ igB d := by exact_mod_cast igB_nonneg d
    have hd1r : (1:ℝ) ≤ d := by exact_mod_cast hd
    have hlow := ig_lower hR hu hu7 hd hd2.le rfl eβ hτr eq er
    have hstep := ig_step_real (ρ := (((d + 1 : ℕ) : ℝ) + 6) * uro f + igX n) hu hu7 hB0 hT (by linarith) (T_pos hR.a0' hR.z0' _) (by linarith)
      eβ eq er (by positivity) hρ hamp hamp'
    refine ⟨rnd f (β + q), ?_, hlow, hstep.trans (mul_le_mul_of_nonneg_right ?_ (T_pos hR.a0' hR.z0' _).le)⟩
    · rw [incomplete_gamma_cf_2_recur, if_pos hd2]
      refine iβ.add iq (nov ?_)
      rw [← Rat.cast_le (K := ℝ)]; push_cast
      have hb : (2 * d - 1 - a + z : ℝ) ≤ 2 ^ 21 := by
        have : (d:ℝ) ≤ 100 := by exact_mod_cast hd2.le
        norm_num; linarith
      have hb0 : (0:ℝ) ≤ (2 * d - 1 - a + z : ℝ) := by linarith
      have c1 := abs_add_le ((β:ℝ) - (2 * d - 1 - a + z)) (2 * d - 1 - a + z)
      rw [sub_add_cancel, abs_of_nonneg hb0] at c1
      have c2 := abs_add_le ((q:ℝ) - d * (a - d) / τ) (d * (a - d) / τ)
      rw [sub_add_cancel, abs_div, abs_of_pos (show (0:ℝ) < τ by linarith)] at c2
      have c3 : |(d * (a - d) : ℝ)| / τ ≤ 2 ^ 28 := by
        refine (div_le_self (abs_nonneg _) (by linarith)).trans ?_
        rw [abs_mul, abs_of_nonneg (show (0:ℝ) ≤ d by linarith)]
        have : (d:ℝ) ≤ 100 := by exact_mod_cast hd2.le
        have h3 : |(a - d : ℝ)| ≤ 2 ^ 21 := by rw [abs_le]; constructor <;> norm_num <;> linarith
        calc (d:ℝ) * |(a - d : ℝ)| ≤ 100 * 2 ^ 21 := by gcongr
          _ ≤ _ := by norm_num
      have c4 : 201 / 100 * uro f * (2 * d - 1 - a + z : ℝ) ≤ 201 / 100 * (1 / 10 ^ 7) * (2 * d - 1 - a + z : ℝ) := by gcongr
      have c5 : 302 / 100 * uro f * (|(d * (a - d) : ℝ)| / τ) ≤ 302 / 100 * (1 / 10 ^ 7) * 2 ^ 28 := by
        have : 0 ≤ |(d * (a - d) : ℝ)| / τ := div_nonneg (abs_nonneg _) (by linarith)
        gcongr
      have c6 := abs_add_le (β:ℝ) q
      generalize |(d * (a - d) : ℝ)| / τ = m at *
      norm_num at c3 c4 c5 hb hu7 ⊢
      linarith
    · have hs : (((1 + 1 / 10 ^ 7) * (igB d * (d + 7)) + (303 / 100 + 506 / 100 * igB d) : ℚ) : ℝ) ≤ ((d + 6 : ℚ) : ℝ) := by
        exact_mod_cast igB_step d hd2
      have hXs : (igX (n + 1) : ℝ) = (1 + 1 / 10 ^ 7) * igB d * igX n := by
        show (((1 + 1 / 10 ^ 7) * igB (99 - n) * igX n : ℚ) : ℝ) = _
        rw [hd9]; push_cast; ring
      rw [hXs]
      push_cast at hs ⊢
      generalize (igB d : ℝ) = B at *
      generalize (igX n : ℝ) = X at *
      have k1 : (1 + uro f) * (B * (((d:ℝ) + 1 + 6) * uro f + X)) ≤ (1 + 1 / 10 ^ 7) * (B * (((d:ℝ) + 1 + 6) * uro f + X)) := by
        gcongr
      have k2 := mul_le_mul_of_nonneg_right hs hu.le
      norm_num at k1 k2 ⊢
      linarith

/-- `log` over `[1/2, ∞)` -/
theorem log_half (hf : f.exact = false) (q : ℚ) (z : Bool) (hx : Valid (fin q z : FV f)) (h1 : 1 / 2 ≤ q) :
    ∃ r w, log (fin q z : FV f) = .ok (fin r w) ∧ |(r : ℝ) - Real.log q| ≤ (15 + 5 * |Real.log q|) * uro f := by
  have hu := uro_pos_real f
  rw [uro_eq]
  rcases le_total 1 q with h | h
  · obtain ⟨r, w, e, b⟩ := C37_ge_one hf q z hx h
    refine ⟨r, w, e, b.trans ?_⟩
    have := le_abs_self (Real.log q)
    gcongr
  · obtain ⟨r, w, e, b⟩ := C37_direct_range hf q z hx h1 (by linarith)
    refine ⟨r, w, e, b.trans ?_⟩
    have : (0:ℝ) < 1 / 2 ^ f.prec := by positivity
    have := abs_nonneg (Real.log q)
    nlinarith

/-- error budget of the exponent `a log z - z - lgamma a` -/
noncomputable def igD (f : Fmt) (a z : ℝ) : ℝ :=
  (113 + 15 * a + 91 / 10 * (a * |Real.log z|) + 31 / 10 * z + 251 / 10 * (a * Real.log (a + 6))) * uro f + 18 / 10 ^ 15

theorem ig_expo (hf : f.exact = false) {a z : ℚ} {wa wz : Bool} (ha : Valid (fin a wa : FV f)) (hz : Valid (fin z wz : FV f))
    (a1 : 1 / 2 ≤ a) (a2 : a ≤ 2 ^ 20) (z1 : 1 / 2 ≤ z) (z2 : z ≤ 2 ^ 20) (hD : igD f a z ≤ 1 / 1000) :
    ∃ l lg t : ℚ, ∃ w w' wt, log (fin z wz : FV f) = .ok (fin l w) ∧ lgamma (fin a wa : FV f) = .ok (fin lg w') ∧
      fin a wa * fin l w - fin z wz - fin lg w' = (fin t wt : FV f) ∧ Valid (fin t wt : FV f) ∧
      |(t:ℝ) - (a * Real.log z - z - Real.log (Real.Gamma a))| ≤ igD f a z := by
  have hu := uro_pos_real f
  have hu7 := uro7_real f
  have a1' : (1 / 2 : ℝ) ≤ a := by have := (Rat.cast_le (K := ℝ)).2 a1; push_cast at this; exact this
  have z1' : (1 / 2 : ℝ) ≤ z := by have := (Rat.cast_le (K := ℝ)).2 z1; push_cast at this; exact this
  have a2' : (a:ℝ) ≤ 2 ^ 20 := by have := (Rat.cast_le (K := ℝ)).2 a2; push_cast at this; exact this
  have z2' : (z:ℝ) ≤ 2 ^ 20 := by have := (Rat.cast_le (K := ℝ)).2 z2; push_cast at this; exact this
  obtain ⟨l, w, el, bl⟩ := log_half hf z wz hz z1
  obtain ⟨lg, w', eg, bg⟩ := C72_accuracy hf a wa ha a1 (a2.trans (by norm_num))
  rw [div_eq_mul_one_div _ ((2:ℝ) ^ f.prec), ← uro_eq, show 22 * (a:ℝ) * Real.log (a + 6) = 22 * (a * Real.log (a + 6)) by ring] at bg
  have hG := log_gamma_abs_le a1'
  have hL : |Real.log z| ≤ 2 ^ 20 := by
    rw [abs_le]
    have h1 := Real.log_le_sub_one_of_pos (show (0:ℝ) < z by linarith)
    have h2 := Real.one_sub_inv_le_log_of_pos (show (0:ℝ) < z by linarith)
    have h3 : (z:ℝ)⁻¹ ≤ 2 := by rw [inv_le_comm₀ (by linarith) (by norm_num)]; linarith
    norm_num at z2' ⊢
    constructor <;> linarith
  have hG2 : (a:ℝ) * Real.log (a + 6) ≤ 2 ^ 41 := by
    have := Real.log_le_sub_one_of_pos (show (0:ℝ) < a + 6 by linarith)
    calc (a:ℝ) * Real.log (a + 6) ≤ 2 ^ 20 * 2 ^ 21 := by
          refine mul_le_mul a2' ?_ (Real.log_nonneg (by linarith)) (by norm_num)
          norm_num at a2' ⊢; linarith
      _ = _ := by norm_num
  have hx1 : |(a:ℝ) * l - a * Real.log z| ≤ (15 * a + 5 * (a * |Real.log z|)) * uro f := by
    rw [← mul_sub, abs_mul, abs_of_pos (show (0:ℝ) < a by linarith)]
    refine (mul_le_mul_of_nonneg_left bl (by linarith)).trans (le_of_eq (by ring))
  have hAL : |(a:ℝ) * Real.log z| = a * |Real.log z| := by rw [abs_mul, abs_of_pos (show (0:ℝ) < a by linarith)]
  have hAL2 : (a:ℝ) * |Real.log z| ≤ 2 ^ 40 := by
    calc (a:ℝ) * |Real.log z| ≤ 2 ^ 20 * 2 ^ 20 := mul_le_mul a2' hL (abs_nonneg _) (by norm_num)
      _ = _ := by norm_num
  have ep := rnd_all_real f (a * l)
  have es := rnd_all_real f (rnd f (a * l) - z)
  have et := rnd_all_real f (rnd f (rnd f (a * l) - z) - lg)
  have hp0 : 0 ≤ (a:ℝ) * |Real.log z| := by rw [← hAL]; exact abs_nonneg _
  have hg0 : 0 ≤ (a:ℝ) * Real.log (a + 6) := (abs_nonneg _).trans hG
  have i1 := fun h => (is_fin (f := f) a wa).mul (is_fin l w) h
  have i2 := fun h h' => (i1 h).sub (is_fin (f := f) z wz) h'
  have i3 := fun h h' h'' => (i2 h h').sub (is_fin (f := f) lg w') h''
  push_cast at ep es et
  unfold igD at hD ⊢
  generalize hv1 : rnd f (rnd f (a * l) - z) = v1 at *
  generalize hv2 : rnd f (v1 - lg) = v2 at *
  generalize hv0 : rnd f (a * l) = v0 at *
  have hpx : |(v0:ℝ) - a * Real.log z| ≤ (15 * a + 6 * (a * |Real.log z|) + 2 / 1000) * uro f := by
    have h1 := abs_sub_le (v0:ℝ) (a * l) (a * Real.log z)
    have h2 := abs_sub_abs_le_abs_sub ((a:ℝ) * l) (a * Real.log z)
    rw [hAL] at h2
    have h3 : |(a:ℝ) * l| ≤ a * |Real.log z| + 1 / 1000 := by
      have : (15 * a + 5 * (a * |Real.log z|)) * uro f ≤ 1 / 1000 := by
        refine le_trans ?_ hD
        have : (15 * a + 5 * (a * |Real.log z|)) * uro f ≤ (113 + 15 * a + 91 / 10 * (a * |Real.log z|) + 31 / 10 * z + 251 / 10 * (a * Real.log (a + 6))) * uro f :=
          mul_le_mul_of_nonneg_right (by linarith) hu.le
        linarith
      linarith
    have h4 := mul_le_mul_of_nonneg_left h3 hu.le
    linarith
  generalize hm : (a:ℝ) * |Real.log z| = m at *
  generalize hg : (a:ℝ) * Real.log (a + 6) = g at *
  have hmu : 0 ≤ m * uro f := by positivity
  have hgu : 0 ≤ g * uro f := by positivity
  have hau : 0 ≤ (a:ℝ) * uro f := mul_nonneg (by linarith) hu.le
  have hzu : 0 ≤ (z:ℝ) * uro f := mul_nonneg (by linarith) hu.le
  obtain ⟨k1, k2, k3⟩ := comb_err (x := v0) (y := -z) (z := lg) (A := a * Real.log z) (B := -z) (C := Real.log (Real.Gamma a))
    (e := (15 * a + 6 * m + 2 / 1000 + 111 + 22 * g) * uro f + 18 / 10 ^ 15) (M := m + z + g) (s := v1) (t := v2) hu hu7
    (by rw [sub_self, abs_zero]; linarith) (by rw [hAL, abs_neg, abs_of_nonneg (show (0:ℝ) ≤ z by linarith)]; linarith)
    (by linarith) (by norm_num at hD ⊢; linarith)
    (by rw [← sub_eq_add_neg]; exact es) et
  have hv1b : |v1 - lg| ≤ 2 ^ 127 := by
    rw [← Rat.cast_le (K := ℝ)]; push_cast
    have := abs_sub (v1:ℝ) lg
    norm_num at z2' hAL2 hG2 ⊢
    linarith
  have hal : |a * l| ≤ 2 ^ 127 := by
    rw [← Rat.cast_le (K := ℝ)]; push_cast
    have h2 := abs_sub_abs_le_abs_sub ((a:ℝ) * l) (a * Real.log z)
    rw [hAL] at h2
    generalize |(a:ℝ) * l| = x at *
    norm_num at z2' a2' hAL2 hG2 hD ⊢
    linarith
  have hvz : |v0 - z| ≤ 2 ^ 127 := by
    rw [← Rat.cast_le (K := ℝ)]; push_cast
    have h2 := abs_sub_abs_le_abs_sub (v0:ℝ) (a * Real.log z)
    rw [hAL] at h2
    have := abs_sub (v0:ℝ) z
    rw [abs_of_nonneg (show (0:ℝ) ≤ z by linarith)] at this
    norm_num at z2' a2' hAL2 hG2 hD ⊢
    linarith
  obtain ⟨wt, et'⟩ := i3 (hv0 ▸ nov hal) (hv1 ▸ nov hvz) (hv2 ▸ nov hv1b)
  refine ⟨l, lg, v2, w, w', wt, el, eg, et', et' ▸ valid_sub _ _, ?_⟩
  rw [sub_eq_add_neg (_ * _ : ℝ) (z:ℝ)]
  refine k1.trans ?_
  linarith

/-- the quotient `e / τ` taken away from `1` -/
theorem ig_final {u E T e τ S r ε δ : ℝ} (hu : 0 < u) (hu7 : u ≤ 1 / 10 ^ 7) (hT : 0 < T) (hE : 0 < E) (hQ : E / T ≤ 1)
    (he : |e - E| ≤ ε * E) (hτ : |τ - T| ≤ δ * T) (hε : ε ≤ 1 / 100) (hδ : δ ≤ 1 / 1000) (hε0 : 0 ≤ ε) (hδ0 : 0 ≤ δ)
    (hS : |S - e / τ| ≤ u * |e / τ| + u / 1000) (hr : |r - (1 - S)| ≤ u * |1 - S| + u / 1000) :
    |r - (1 - E / T)| ≤ 2 * u + (1002 / 1000 * ε + 102 / 100 * δ + 2 * u) * (E / T) := by
  have t1 := abs_le.1 hτ
  have e1 := abs_le.1 he
  have hδT : δ * T ≤ 1 / 1000 * T := mul_le_mul_of_nonneg_right hδ hT.le
  have hεE : ε * E ≤ 1 / 100 * E := mul_le_mul_of_nonneg_right hε hE.le
  have hτ0 : 999 / 1000 * T ≤ τ := by linarith
  have hτp : 0 < τ := by linarith
  have key : |e / τ - E / T| ≤ (1002 / 1000 * ε + 1012 / 1000 * δ) * (E / T) := by
    have : e / τ - E / T = ((e - E) - (τ - T) * (E / T)) / τ := by field_simp; ring
    rw [this, abs_div, abs_of_pos hτp, div_le_iff₀ hτp]
    have hQ0 : 0 < E / T := by positivity
    have h1 : |(τ - T) * (E / T)| ≤ δ * E := by
      rw [abs_mul, abs_of_pos hQ0]
      refine (mul_le_mul_of_nonneg_right hτ hQ0.le).trans (le_of_eq (by field_simp))
    have h2 := abs_sub (e - E) ((τ - T) * (E / T))
    have h3 : (1002 / 1000 * ε + 1012 / 1000 * δ) * (E / T) * (999 / 1000 * T) ≤ (1002 / 1000 * ε + 1012 / 1000 * δ) * (E / T) * τ := by
      gcongr
    have h4 : (1002 / 1000 * ε + 1012 / 1000 * δ) * (E / T) * (999 / 1000 * T) = (1002 / 1000 * ε + 1012 / 1000 * δ) * (999 / 1000) * E := by
      field_simp
    have h5 := mul_nonneg hε0 hE.le
    have h6 := mul_nonneg hδ0 hE.le
    linarith
  have hQ0 : 0 ≤ E / T := by positivity
  generalize E / T = Q at *
  generalize e / τ = q at *
  have k0 : (1002 / 1000 * ε + 1012 / 1000 * δ) * Q ≤ 12 / 1000 * Q := mul_le_mul_of_nonneg_right (by linarith) hQ0
  have k1 : |q| ≤ 102 / 100 * Q := by
    have := abs_sub_abs_le_abs_sub q Q
    rw [abs_of_nonneg hQ0] at this
    linarith
  have k2 := mul_le_mul_of_nonneg_left k1 hu.le
  have k3 : u * Q ≤ 1 / 10 ^ 7 * 1 := mul_le_mul hu7 hQ hQ0 (by norm_num)
  have k4 := abs_sub_le S q Q
  have k5 : |1 - S| ≤ 102 / 100 := by
    have h1 := abs_sub_le 1 Q S
    rw [abs_of_nonneg (show 0 ≤ 1 - Q by linarith), abs_sub_comm Q S] at h1
    norm_num at k3 hu7
    linarith
  have k6 := mul_le_mul_of_nonneg_left k5 hu.le
  have k7 := abs_sub_le r (1 - S) (1 - Q)
  rw [show (1 - S) - (1 - Q) = -(S - Q) by ring, abs_neg] at k7
  have k8 : 0 ≤ u * Q := by positivity
  have k9 : 0 ≤ δ * Q := by positivity
  linarith

theorem igD_small (f : Fmt) : (113 + 440 * (((expMin f.ty : ℝ) - 1) / 3) + 31 / 10 * ((expMin f.ty : ℝ) - 1)) / 2 ^ f.prec + 18 / 10 ^ 15 ≤ 1 / 1000 := by
  rcases f with ⟨⟨⟩, ⟨⟩⟩ <;> norm_num [Fmt.prec, FTy.prec, expMin]

theorem expMin_le (t : FTy) : (expMin t : ℝ) ≤ 12000 ∧ (expMin t : ℝ) ≤ expMax t := by
  cases t <;> norm_num [expMin, expMax]

theorem ig_branch2 {a z : ℚ} {wa wz : Bool} (a1 : 1 / 2 ≤ a) (az : a + 10 ≤ z) (hor : a < 10 ∨ 301 / 100 * a ≤ z) (z20 : z ≤ 2 ^ 20) :
    incomplete_gamma (fin a wa : FV f) (fin z wz) = incomplete_gamma_cf_2 (fin a wa) (fin z wz) := by
  have hmna : ¬ ((limMin : FV f) > fin a wa) := by
    have h1 := minNormal_le' f
    unfold limMin; change ¬ (fin _ _ < fin _ _); simp; exact h1.trans (le_trans (by norm_num) a1)
  have hmnz : ¬ ((limMin : FV f) > fin z wz) := by
    have h1 := minNormal_le' f
    unfold limMin; change ¬ (fin _ _ < fin _ _); simp; exact h1.trans (le_trans (by norm_num) (show 1 / 2 ≤ z by linarith))
  obtain ⟨w0, e0⟩ := is_i (f := f) (n := 0) (by norm_num)
  obtain ⟨w10, e10⟩ := is_i (f := f) (n := 10) (by norm_num)
  obtain ⟨w3, e3⟩ := is_i (f := f) (n := 3) (by norm_num)
  obtain ⟨ws, es⟩ := (is_fin (f := f) z wz).sub (is_fin a wa) (nov (by
    rw [abs_of_nonneg (by linarith)]; norm_num at z20 ⊢; linarith))
  have r10 : (10:ℚ) ≤ rnd f (z - a) := le_rnd_of_rep (by simpa using rep_int (f := f) (n := 10) (by have := two_pow_prec f; simp; omega)) (by linarith)
  unfold incomplete_gamma incomplete_gamma_check
  rw [if_neg (by simp [any_nan, is_nan]), if_neg (by rw [e0]; simp; linarith), if_neg hmnz, if_neg hmna,
    if_neg (by rw [es, e10]; simp; intro _; exact r10), if_pos]
  rcases hor with h | h
  · left; rw [e10]; simp; exact h
  · right
    have hq : 301 / 100 ≤ z / a := by rw [le_div_iff₀ (by linarith)]; exact h
    have hq2 : z / a ≤ 2 ^ 21 := by rw [div_le_iff₀ (by linarith)]; norm_num at z20 ⊢; linarith
    obtain ⟨wq, eq⟩ := (is_fin (f := f) z wz).div (is_fin a wa) (by linarith) (nov (by
      rw [abs_of_nonneg (by linarith)]; exact hq2.trans (by norm_num)))
    have r3 : Rep f (769 / 256 : ℚ) :=
      (rep_mono_prec (f := f) (g := f) (q := 769 / 256) (m := 769) (e := -8) (by norm_num [pow2_eq]) (by norm_num) (by norm_num)).1
    have hr3 : (769 / 256 : ℚ) ≤ rnd f (z / a) := le_rnd_of_rep r3 (by linarith)
    rw [eq, e3]
    change fin _ _ < fin _ _
    simp
    linarith

/-- the exponent and the first tail of the continued fraction -/
theorem ig_tail_real {a z : ℝ} (hR : IgReg a z) :
    (∫ t in Set.Ioc 0 z, Real.exp (-t) * t ^ (a - 1)) / Real.Gamma a = 1 - Real.exp (a * Real.log z - z - Real.log (Real.Gamma a)) / T a z 1 ∧
    Real.exp (a * Real.log z - z - Real.log (Real.Gamma a)) / T a z 1 ≤ 1 ∧ Real.exp (a * Real.log z - z - Real.log (Real.Gamma a)) ≤ z + 1 ∧
    |a * Real.log z - z - Real.log (Real.Gamma a)| ≤ z := by
  have a1' := hR.a0
  have az' := hR.az
  have hG := log_gamma_abs_le a1'
  have hla' : Real.log (a + 6) ≤ Real.log z := Real.log_le_log (by linarith) (by linarith)
  have hΓ : 0 < Real.Gamma a := Real.Gamma_pos_of_pos hR.a0'
  have hE : Real.exp (a * Real.log z - z - Real.log (Real.Gamma a)) / T a z 1 = K a z 0 / Real.Gamma a := by
    have hK := K_pos hR.a0' hR.z0' 0
    have hx : 0 < z ^ a * Real.exp (-z) := mul_pos (Real.rpow_pos_of_pos hR.z0' _) (Real.exp_pos _)
    rw [T, show a * Real.log z - z - Real.log (Real.Gamma a) = Real.log z * a + -z - Real.log (Real.Gamma a) by ring,
      Real.exp_sub, Real.exp_add, Real.exp_log hΓ, ← Real.rpow_def_of_pos hR.z0']
    have hz0 := Real.rpow_pos_of_pos hR.z0' a
    generalize z ^ a = x at *
    field_simp
  have hP : (∫ t in Set.Ioc 0 z, Real.exp (-t) * t ^ (a - 1)) / Real.Gamma a =
      1 - Real.exp (a * Real.log z - z - Real.log (Real.Gamma a)) / T a z 1 := by
    rw [hE, K_compl hR.a0' hR.z0', sub_div, div_self hΓ.ne']
  have hQ1 : Real.exp (a * Real.log z - z - Real.log (Real.Gamma a)) / T a z 1 ≤ 1 := by
    have : 0 ≤ (∫ t in Set.Ioc 0 z, Real.exp (-t) * t ^ (a - 1)) / Real.Gamma a := by
      refine div_nonneg (MeasureTheory.setIntegral_nonneg measurableSet_Ioc fun x hx => ?_) hΓ.le
      exact mul_nonneg (Real.exp_pos _).le (Real.rpow_nonneg hx.1.le _)
    rw [hP] at this
    linarith
  have hT1 : T a z 1 ≤ z + 1 := by
    have := T_rec hR.a0' hR.z0' (d := 1) le_rfl
    have h9 := (hR.T_ge9 (d := 2) (by norm_num)).1
    push_cast at this h9
    rw [this]
    have : 1 * (a - 1) / T a z (1 + 1) ≤ a := by
      rw [show (1 + 1 : ℕ) = 2 from rfl, div_le_iff₀ (by linarith)]
      nlinarith
    linarith
  have hv1 : a * Real.log z - z - Real.log (Real.Gamma a) ≤ z := by
    rw [div_le_one (T_pos hR.a0' hR.z0' _)] at hQ1
    have := Real.log_le_sub_one_of_pos (show (0:ℝ) < z + 1 by linarith)
    have h2 := (Real.le_log_iff_exp_le (by linarith)).2 (hQ1.trans hT1)
    linarith
  have hv2 : -z ≤ a * Real.log z - z - Real.log (Real.Gamma a) := by
    have h1 := (abs_le.1 hG).2
    have h2 : a * Real.log (a + 6) ≤ a * Real.log z := mul_le_mul_of_nonneg_left hla' (by linarith)
    linarith
  refine ⟨hP, hQ1, ?_, abs_le.2 ⟨hv2, hv1⟩⟩
  rw [div_le_one (T_pos hR.a0' hR.z0' _)] at hQ1
  exact hQ1.trans hT1

/-- C78: in the region where `incomplete_gamma` uses the upper continued fraction, the result differs from
`P(a,z) = (∫₀ᶻ t^(a-1) e^(-t) dt) / Γ(a)` by at most two units of rounding plus a small multiple of the complement `1 - P(a,z)` -/
theorem C78_accuracy (hf : f.exact = false) (a z : ℚ) (wa wz : Bool) (ha : Valid (fin a wa : FV f)) (hz : Valid (fin z wz : FV f))
    (a1 : 1 / 2 ≤ a) (az : a + 10 ≤ z) (hor : a < 10 ∨ 301 / 100 * a ≤ z) (z2 : (z:ℝ) ≤ expMin f.ty - 1) :
    ∃ r w, incomplete_gamma (fin a wa : FV f) (fin z wz) = .ok (fin r w) ∧
      |(r:ℝ) - (∫ t in Set.Ioc 0 (z:ℝ), Real.exp (-t) * t ^ ((a:ℝ) - 1)) / Real.Gamma a| ≤
        (2 + (260 + 45 * a * Real.log (z + 6) + 8 * z) * (1 - (∫ t in Set.Ioc 0 (z:ℝ), Real.exp (-t) * t ^ ((a:ℝ) - 1)) / Real.Gamma a)) / 2 ^ f.prec
          + 19 / 10 ^ 15 * (1 - (∫ t in Set.Ioc 0 (z:ℝ), Real.exp (-t) * t ^ ((a:ℝ) - 1)) / Real.Gamma a) := by
  have hu := uro_pos_real f
  have hu7 := uro7_real f
  have a1' : (1 / 2 : ℝ) ≤ a := by have := (Rat.cast_le (K := ℝ)).2 a1; push_cast at this; exact this
  have az' : (a:ℝ) + 10 ≤ z := by exact_mod_cast az
  have hR : IgReg a z := ⟨a1', az', by
    rcases hor with h | h
    · left; exact_mod_cast h
    · right
      have : (301 / 100 * a : ℝ) ≤ z := by have := (Rat.cast_le (K := ℝ)).2 h; push_cast at this; exact this
      linarith⟩
  have hM := expMin_le f.ty
  have z20 : z ≤ 2 ^ 20 := by
    rw [← Rat.cast_le (K := ℝ)]; push_cast; norm_num; linarith
  have a20 : a ≤ 2 ^ 20 := by linarith
  have hbr := ig_branch2 (f := f) (wa := wa) (wz := wz) a1 az hor z20
  -- the exponent
  have hΛ : 155 / 100 ≤ Real.log ((z:ℝ) + 6) := le_log_aux (by linarith)
  have hΛ10 : Real.log ((z:ℝ) + 6) ≤ 10 := by
    rw [Real.log_le_iff_le_exp (by linarith)]
    have e : Real.exp 10 = Real.exp 1 ^ 10 := by rw [← Real.exp_nat_mul]; norm_num
    rw [e]
    have : (2.7:ℝ) ^ 10 ≤ Real.exp 1 ^ 10 := pow_le_pow_left₀ (by norm_num) (by have := Real.exp_one_gt_d9; linarith) 10
    refine le_trans ?_ this
    norm_num
    linarith
  have hlz0 : 0 ≤ Real.log z := Real.log_nonneg (by linarith)
  have hlz : Real.log z ≤ Real.log ((z:ℝ) + 6) := Real.log_le_log (by linarith) (by linarith)
  have hla : Real.log ((a:ℝ) + 6) ≤ Real.log ((z:ℝ) + 6) := Real.log_le_log (by linarith) (by linarith)
  have hla' : Real.log ((a:ℝ) + 6) ≤ Real.log z := Real.log_le_log (by linarith) (by linarith)
  have ha3 : (a:ℝ) ≤ ((expMin f.ty : ℝ) - 1) / 3 := by
    have := expMin_ge f.ty
    rcases hR.or with h | h <;> linarith
  have hD1 : igD f a z ≤ (113 + 44 * (a * Real.log (z + 6)) + 31 / 10 * z) * uro f + 18 / 10 ^ 15 := by
    unfold igD
    rw [abs_of_nonneg hlz0]
    have h1 : (a:ℝ) * Real.log z ≤ a * Real.log (z + 6) := mul_le_mul_of_nonneg_left hlz (by linarith)
    have h2 : (a:ℝ) * Real.log (a + 6) ≤ a * Real.log (z + 6) := mul_le_mul_of_nonneg_left hla (by linarith)
    have h3 : (a:ℝ) * (155 / 100) ≤ a * Real.log (z + 6) := mul_le_mul_of_nonneg_left hΛ (by linarith)
    have := mul_le_mul_of_nonneg_right (show 113 + 15 * (a:ℝ) + 91 / 10 * (a * Real.log z) + 31 / 10 * z + 251 / 10 * (a * Real.log (a + 6)) ≤
      113 + 44 * (a * Real.log (z + 6)) + 31 / 10 * z by linarith) hu.le
    linarith
  have hD2 : (113 + 44 * (a * Real.log (z + 6)) + 31 / 10 * z) * uro f + 18 / 10 ^ 15 ≤ 1 / 1000 := by
    refine le_trans ?_ (igD_small f)
    rw [div_eq_mul_one_div _ ((2:ℝ) ^ f.prec), ← uro_eq]
    have h1 : (a:ℝ) * Real.log (z + 6) ≤ ((expMin f.ty : ℝ) - 1) / 3 * 10 := mul_le_mul ha3 hΛ10 (by linarith) (by linarith)
    have := mul_le_mul_of_nonneg_right (show 113 + 44 * ((a:ℝ) * Real.log (z + 6)) + 31 / 10 * z ≤
      113 + 440 * (((expMin f.ty : ℝ) - 1) / 3) + 31 / 10 * ((expMin f.ty : ℝ) - 1) by linarith) hu.le
    linarith
  obtain ⟨l, lg, t, w, w', wt, el, eg, et, vt, bt⟩ := ig_expo hf ha hz a1 a20 (by linarith) z20 (hD1.trans hD2)
  obtain ⟨hP, hQ1, hex, hv⟩ := ig_tail_real hR
  obtain ⟨hv2, hv1⟩ := abs_le.1 hv
  obtain ⟨e, ee, e0, be⟩ := exp_of_lgamma hf vt (hD1.trans hD2) bt (by linarith) (by linarith)
  obtain ⟨τ, iτ, hτ, bτ⟩ := ig_cf ha hz hR z20 99 le_rfl
  have hX : (igX 99 : ℝ) ≤ 1 / 10 ^ 20 := by
    have := (Rat.cast_le (K := ℝ)).2 igX_small; push_cast at this; exact this
  norm_num only [show (100 - 99 : ℕ) = 1 from rfl] at iτ hτ bτ
  have hτ0 : (0:ℝ) < τ := by linarith
  have hu0 : 0 ≤ (a:ℝ) * Real.log (z + 6) := mul_nonneg (by linarith) (by linarith)
  have be' : |(e:ℝ) - Real.exp ((a:ℝ) * Real.log z - z - Real.log (Real.Gamma a))| ≤
      ((2467 / 10 + 441 / 10 * (a * Real.log (z + 6)) + 715 / 100 * z) * uro f + 1805 / 10 ^ 17) *
        Real.exp ((a:ℝ) * Real.log z - z - Real.log (Real.Gamma a)) := by
    refine be.trans (mul_le_mul_of_nonneg_right ?_ (Real.exp_pos _).le)
    have h1 := mul_le_mul_of_nonneg_right hv hu.le
    have h2 := mul_nonneg hu0 hu.le
    have h3 : 0 ≤ (z:ℝ) * uro f := mul_nonneg (by linarith) hu.le
    norm_num only at hD1 ⊢
    linarith
  have hε : (2467 / 10 + 441 / 10 * (a * Real.log (z + 6)) + 715 / 100 * z) * uro f + 1805 / 10 ^ 17 ≤ 1 / 100 := by
    have h2 := mul_nonneg hu0 hu.le
    have h3 : 0 ≤ (z:ℝ) * uro f := mul_nonneg (by linarith) hu.le
    norm_num only at hD2 ⊢
    linarith
  have bτ' : |(τ:ℝ) - T a z 1| ≤ (7 * uro f + 1 / 10 ^ 20) * T a z 1 :=
    bτ.trans (mul_le_mul_of_nonneg_right (by linarith) (T_pos hR.a0' hR.z0' _).le)
  have eS := rnd_all_real f (e / τ)
  have eR := rnd_all_real f (1 - rnd f (e / τ))
  push_cast at eS eR
  have hQ0 : 0 ≤ Real.exp ((a:ℝ) * Real.log z - z - Real.log (Real.Gamma a)) / T a z 1 := div_nonneg (Real.exp_pos _).le (T_pos hR.a0' hR.z0' _).le
  have hfin := ig_final hu hu7 (T_pos hR.a0' hR.z0' 1) (Real.exp_pos _) hQ1 be' bτ' hε (by norm_num only at hu7 ⊢; linarith)
    (by have : (0:ℝ) ≤ z := by linarith
        positivity) (by positivity) eS eR
  have hes : (e:ℝ) ≤ 2 ^ 21 := by
    have h1 := (abs_le.1 be').2
    have h2 := mul_le_mul_of_nonneg_right hε (Real.exp_pos ((a:ℝ) * Real.log z - z - Real.log (Real.Gamma a))).le
    norm_num
    linarith
  have hq1 : |e / τ| ≤ 2 ^ 21 := by
    rw [← Rat.cast_le (K := ℝ)]; push_cast
    have e0' : (0:ℝ) < e := by exact_mod_cast e0
    rw [abs_of_pos (div_pos e0' hτ0), div_le_iff₀ hτ0]
    norm_num at hes ⊢
    nlinarith
  have hq2 : |1 - rnd f (e / τ)| ≤ 2 ^ 22 := by
    have hq3 := (Rat.cast_le (K := ℝ)).2 hq1
    rw [← Rat.cast_le (K := ℝ)]; push_cast at hq3 ⊢
    have h1 := abs_sub 1 ((rnd f (e / τ) : ℚ) : ℝ)
    have h2 := abs_sub_abs_le_abs_sub ((rnd f (e / τ) : ℚ) : ℝ) (e / τ)
    have h3 : uro f * |(e / τ : ℝ)| ≤ 1 / 10 ^ 7 * 2 ^ 21 := mul_le_mul hu7 hq3 (abs_nonneg _) (by norm_num)
    rw [abs_one] at h1
    norm_num only at h3 hq3 hu7 ⊢
    linarith
  have iq := (is_fin (f := f) e false).div iτ (by
    have : (0:ℚ) < τ := by exact_mod_cast hτ0
    exact this.ne') (nov (hq1.trans (by norm_num)))
  obtain ⟨w1, e1⟩ := (is_i (f := f) (n := 1) (by norm_num)).sub iq (nov (by push_cast; exact hq2.trans (by norm_num)))
  push_cast at e1
  refine ⟨rnd f (1 - rnd f (e / τ)), w1, ?_, ?_⟩
  · rw [hbr]
    unfold incomplete_gamma_cf_2
    simp only [el, eg, bind, Except.bind, et, ee, e1]
  · rw [hP, div_eq_mul_one_div _ ((2:ℝ) ^ f.prec), ← uro_eq, sub_sub_cancel]
    refine hfin.trans ?_
    rw [show 45 * (a:ℝ) * Real.log (z + 6) = 45 * (a * Real.log (z + 6)) by ring]
    generalize Real.exp ((a:ℝ) * Real.log z - z - Real.log (Real.Gamma a)) / T a z 1 = Q at *
    have h2 := mul_nonneg hu0 (mul_nonneg hu.le hQ0)
    have h3 : 0 ≤ (z:ℝ) * (uro f * Q) := mul_nonneg (by linarith) (mul_nonneg hu.le hQ0)
    have h4 := mul_nonneg hu.le hQ0
    norm_num only
    linarith

/-- `P(2, 20)` in double: the exact value is `1 - 21 e^(-20)` -/
example : ∃ r w, incomplete_gamma (fin 2 false : FV binary64) (fin 20 false) = .ok (fin r w) ∧
    |(r:ℝ) - (∫ t in Set.Ioc 0 ((20:ℚ):ℝ), Real.exp (-t) * t ^ (((2:ℚ):ℝ) - 1)) / Real.Gamma ((2:ℚ):ℝ)| ≤
      (2 + (260 + 45 * (2:ℚ) * Real.log ((20:ℚ) + 6) + 8 * (20:ℚ)) * (1 - (∫ t in Set.Ioc 0 ((20:ℚ):ℝ), Real.exp (-t) * t ^ (((2:ℚ):ℝ) - 1)) / Real.Gamma ((2:ℚ):ℝ))) / 2 ^ 53
          + 19 / 10 ^ 15 * (1 - (∫ t in Set.Ioc 0 ((20:ℚ):ℝ), Real.exp (-t) * t ^ (((2:ℚ):ℝ) - 1)) / Real.Gamma ((2:ℚ):ℝ)) :=
  C78_accuracy (f := binary64) rfl 2 20 false false (by decide +kernel) (by decide +kernel) (by norm_num) (by norm_num) (by norm_num)
    (by norm_num [binary64, expMin])

end Gcem.Props
