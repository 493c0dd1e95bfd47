import Verif.Fp.Sum
import Verif.Model.Const
import Mathlib.Tactic.Linarith
import Mathlib.Tactic.NormNum
import Mathlib.Tactic.Positivity

/-!
# Absolute error of one operation, and invariants of downward loops
-/

namespace Gcem
open FV
variable {f : Fmt}

/-- unit roundoff with a little slack that absorbs underflow -/
def wro (f : Fmt) : ℚ := 1001 / 1000 * uro f

theorem wro_pos (f : Fmt) : 0 < wro f := by unfold wro; have := uro_pos f; positivity

theorem wro_le (f : Fmt) : wro f ≤ 1 / 10000000 := by
  unfold wro; have := uro_lt_half f; linarith

theorem half_emin_le (f : Fmt) : pow2 f.emin / 2 ≤ uro f * pow2 (-100) := by
  have h : pow2 f.emin ≤ pow2 (-(f.prec : ℤ) + -100) := by
    apply pow2_le; rcases f with ⟨⟨⟩, ⟨⟩⟩ <;> decide
  rw [pow2_add] at h
  have := pow2_pos f.emin
  unfold uro
  linarith

/-- error of rounding a value of magnitude at most `B`, `B` not tiny -/
theorem rnd_abs {q B : ℚ} (hB : 1 / 1000000 ≤ B) (h : |q| ≤ B) : |rnd f q - q| ≤ wro f * B := by
  refine (rnd_err_all q).trans ?_
  have h1 := half_emin_le f
  have h2 : pow2 (-100) ≤ 1 / 1000000000 := by
    have : pow2 (-100) ≤ pow2 (-30) := pow2_le (by norm_num)
    have e : pow2 (-30) = 1 / 1073741824 := by norm_num [pow2_eq]
    linarith
  have hu := uro_pos f
  have h3 : uro f * pow2 (-100) ≤ uro f * (1 / 1000 * B) := by
    apply mul_le_mul_of_nonneg_left _ hu.le; linarith
  have h4 : uro f * |q| ≤ uro f * B := mul_le_mul_of_nonneg_left h hu.le
  unfold wro
  nlinarith

theorem whileDown_inv {α : Type} (step : ℕ → α → α) (stop : ℕ) (P : ℕ → α → Prop)
    (hs : ∀ d r, stop ≤ d → P (d + 1) r → P d (step (d + 1) r)) :
    ∀ start r, stop ≤ start → P start r → P stop (whileDown step stop start r)
  | 0, r, h, hr => by
    have : stop = 0 := by omega
    subst this; exact hr
  | n + 1, r, h, hr => by
    unfold whileDown
    split_ifs with h1
    · exact whileDown_inv step stop P hs n _ (by omega) (hs n r (by omega) hr)
    · have : stop = n + 1 := by omega
      subst this; exact hr

theorem whileDown_split {α : Type} (step : ℕ → α → α) (stop mid : ℕ) (h : stop ≤ mid) :
    ∀ start r, mid ≤ start →
      whileDown step stop start r = whileDown step stop mid (whileDown step mid start r)
  | 0, r, h2 => by
    have : mid = 0 := by omega
    subst this; rfl
  | n + 1, r, h2 => by
    by_cases hm : mid = n + 1
    · subst hm
      conv_rhs => rw [show whileDown step (n + 1) (n + 1) r = r by unfold whileDown; simp]
    · have e : whileDown step mid (n + 1) r = whileDown step mid n (step (n + 1) r) := by
        conv_lhs => unfold whileDown
        rw [if_pos (by omega)]
      rw [e, ← whileDown_split step stop mid h n _ (by omega)]
      conv_lhs => unfold whileDown
      rw [if_pos (by omega)]

theorem whileDown_one {α : Type} (step : ℕ → α → α) (n : ℕ) (r : α) :
    whileDown step n (n + 1) r = step (n + 1) r := by
  unfold whileDown
  rw [if_pos (by omega)]
  cases n with
  | zero => rfl
  | succ n => unfold whileDown; simp

/-! ## Absolute error in units of the roundoff

`Ap v q c`: `v` is finite and within `c` (slightly enlarged) unit roundoffs of `q`. -/

def Ap (v : FV f) (q c : ℚ) : Prop := ∃ a, Is v a ∧ |a - q| ≤ c * wro f

theorem Is.ap {v : FV f} {q : ℚ} (h : Is v q) : Ap v q 0 := ⟨q, h, by simp⟩

theorem Ap.mono {v : FV f} {q c c' : ℚ} (h : Ap v q c) (hc : c ≤ c') : Ap v q c' := by
  obtain ⟨a, h1, h2⟩ := h
  exact ⟨a, h1, h2.trans (mul_le_mul_of_nonneg_right hc (wro_pos f).le)⟩

theorem Ap.nonneg {v : FV f} {q c : ℚ} (h : Ap v q c) : 0 ≤ c := by
  obtain ⟨a, -, h2⟩ := h
  have := wro_pos f
  by_contra hc
  push Not at hc
  have := abs_nonneg (a - q)
  nlinarith

/-- rounding step shared by all operations -/
theorem ap_round {r q c B c' : ℚ} (h : |r - q| ≤ c * wro f) (hB : |q| ≤ B) (hB' : 1 / 1000000 ≤ B)
    (hB'' : B ≤ 10 ^ 30) (hc0 : 0 ≤ c) (hc : c + B + c / 10 ^ 7 ≤ c') (hc' : c ≤ 10 ^ 30) :
    overflows f (rnd f r) = false ∧ |rnd f r - q| ≤ c' * wro f := by
  have hw := wro_pos f
  have hw1 := wro_le f
  have h1 : |r| ≤ B + c * wro f := by
    have : r = q + (r - q) := by ring
    rw [this]; exact (abs_add_le _ _).trans (add_le_add hB h)
  have hcw : c * wro f ≤ c / 10 ^ 7 := by
    rw [le_div_iff₀ (by norm_num)]; nlinarith
  have hcw0 : 0 ≤ c * wro f := by positivity
  refine ⟨nov (h1.trans ?_), ?_⟩
  · have : c / 10 ^ 7 ≤ c := div_le_self hc0 (by norm_num)
    have e : (10:ℚ) ^ 30 + 10 ^ 30 ≤ 2 ^ 127 := by norm_num
    linarith
  · have h2 := rnd_abs (f := f) (by linarith) h1
    have : rnd f r - q = (rnd f r - r) + (r - q) := by ring
    rw [this]
    refine (abs_add_le _ _).trans ((add_le_add h2 h).trans ?_)
    calc wro f * (B + c * wro f) + c * wro f = (B + c * wro f + c) * wro f := by ring
      _ ≤ c' * wro f := mul_le_mul_of_nonneg_right (by linarith) hw.le

theorem Ap.add {v v' : FV f} {p q c c' B c'' : ℚ} (hv : Ap v p c) (hv' : Ap v' q c')
    (hB : |p + q| ≤ B) (hB' : 1 / 1000000 ≤ B) (hB'' : B ≤ 10 ^ 30)
    (hc : (c + c') + B + (c + c') / 10 ^ 7 ≤ c'') (hc' : c + c' ≤ 10 ^ 30) :
    Ap (v + v') (p + q) c'' := by
  have n1 := hv.nonneg
  have n2 := hv'.nonneg
  obtain ⟨a, h1, h2⟩ := hv
  obtain ⟨b, h3, h4⟩ := hv'
  have h : |(a + b) - (p + q)| ≤ (c + c') * wro f := by
    have : (a + b) - (p + q) = (a - p) + (b - q) := by ring
    rw [this, add_mul]; exact (abs_add_le _ _).trans (add_le_add h2 h4)
  obtain ⟨o, r⟩ := ap_round h hB hB' hB'' (by linarith) hc hc'
  exact ⟨_, h1.add h3 o, r⟩

theorem Ap.sub {v v' : FV f} {p q c c' B c'' : ℚ} (hv : Ap v p c) (hv' : Ap v' q c')
    (hB : |p - q| ≤ B) (hB' : 1 / 1000000 ≤ B) (hB'' : B ≤ 10 ^ 30)
    (hc : (c + c') + B + (c + c') / 10 ^ 7 ≤ c'') (hc' : c + c' ≤ 10 ^ 30) :
    Ap (v - v') (p - q) c'' := by
  have n1 := hv.nonneg
  have n2 := hv'.nonneg
  obtain ⟨a, h1, h2⟩ := hv
  obtain ⟨b, h3, h4⟩ := hv'
  have h : |(a - b) - (p - q)| ≤ (c + c') * wro f := by
    have : (a - b) - (p - q) = (a - p) - (b - q) := by ring
    rw [this, add_mul]; exact (abs_sub _ _).trans (add_le_add h2 h4)
  obtain ⟨o, r⟩ := ap_round h hB hB' hB'' (by linarith) hc hc'
  exact ⟨_, h1.sub h3 o, r⟩

theorem Ap.mul {v v' : FV f} {p q c c' P Q C c'' : ℚ} (hv : Ap v p c) (hv' : Ap v' q c')
    (hP : |p| ≤ P) (hQ : |q| ≤ Q) (hB' : 1 / 1000000 ≤ P * Q) (hB'' : P * Q ≤ 10 ^ 30)
    (hC : c * (Q + c' / 10 ^ 7) + P * c' ≤ C) (hC' : C ≤ 10 ^ 30)
    (hc : C + P * Q + C / 10 ^ 7 ≤ c'') : Ap (v * v') (p * q) c'' := by
  have n1 := hv.nonneg
  have n2 := hv'.nonneg
  have hw := wro_pos f
  have hw1 := wro_le f
  obtain ⟨a, h1, h2⟩ := hv
  obtain ⟨b, h3, h4⟩ := hv'
  have P0 : 0 ≤ P := (abs_nonneg _).trans hP
  have Q0 : 0 ≤ Q := (abs_nonneg _).trans hQ
  have hb : |b| ≤ Q + c' / 10 ^ 7 := by
    have : b = q + (b - q) := by ring
    rw [this]
    refine (abs_add_le _ _).trans (add_le_add hQ (h4.trans ?_))
    rw [le_div_iff₀ (by norm_num)]; nlinarith
  have h : |a * b - p * q| ≤ C * wro f := by
    have : a * b - p * q = (a - p) * b + p * (b - q) := by ring
    rw [this]
    refine (abs_add_le _ _).trans ?_
    rw [abs_mul, abs_mul]
    have m1 := mul_le_mul h2 hb (abs_nonneg _) (by positivity)
    have m2 := mul_le_mul hP h4 (abs_nonneg _) P0
    calc _ ≤ c * wro f * (Q + c' / 10 ^ 7) + P * (c' * wro f) := add_le_add m1 m2
      _ = (c * (Q + c' / 10 ^ 7) + P * c') * wro f := by ring
      _ ≤ _ := mul_le_mul_of_nonneg_right hC hw.le
  have C0 : 0 ≤ C := le_trans (by positivity) hC
  have hB : |p * q| ≤ P * Q := by rw [abs_mul]; exact mul_le_mul hP hQ (abs_nonneg _) P0
  obtain ⟨o, r⟩ := ap_round h hB hB' hB'' C0 hc hC'
  exact ⟨_, h1.mul h3 o, r⟩

theorem Ap.div {v v' : FV f} {p r c c' ρ B C c'' : ℚ} (hv : Ap v p c) (hv' : Ap v' r c')
    (hρ : 0 < ρ) (hr : ρ + c' / 10 ^ 7 ≤ |r|) (hB : |p / r| ≤ B)
    (hB' : 1 / 1000000 ≤ B) (hB'' : B ≤ 10 ^ 30)
    (hC : (c + B * c') / ρ ≤ C) (hC' : C ≤ 10 ^ 30)
    (hc : C + B + C / 10 ^ 7 ≤ c'') : Ap (v / v') (p / r) c'' := by
  have n1 := hv.nonneg
  have n2 := hv'.nonneg
  have hw := wro_pos f
  have hw1 := wro_le f
  obtain ⟨a, h1, h2⟩ := hv
  obtain ⟨b, h3, h4⟩ := hv'
  have hcw : c' * wro f ≤ c' / 10 ^ 7 := by
    rw [le_div_iff₀ (by norm_num)]; nlinarith
  have hb : ρ ≤ |b| := by
    have : r = b - (b - r) := by ring
    have h5 := abs_sub b (b - r)
    rw [← this] at h5
    linarith
  have hb0 : 0 < |b| := by linarith
  have hbne : b ≠ 0 := abs_pos.1 hb0
  have hr0 : 0 < |r| := by have : 0 ≤ c' / 10 ^ 7 := by positivity
                           linarith
  have hrne : r ≠ 0 := abs_pos.1 hr0
  have h : |a / b - p / r| ≤ C * wro f := by
    have : a / b - p / r = ((a - p) + p / r * (r - b)) / b := by field_simp; ring
    rw [this, abs_div]
    have h5 : |(a - p) + p / r * (r - b)| ≤ (c + B * c') * wro f := by
      refine (abs_add_le _ _).trans ?_
      rw [abs_mul, abs_sub_comm r b, add_mul, mul_assoc]
      exact add_le_add h2 (mul_le_mul hB h4 (abs_nonneg _) (by linarith))
    have hn : 0 ≤ c + B * c' := by have : 0 ≤ B := by linarith
                                   positivity
    calc _ ≤ (c + B * c') * wro f / ρ := div_le_div₀ (by positivity) h5 hρ hb
      _ = (c + B * c') / ρ * wro f := by ring
      _ ≤ _ := mul_le_mul_of_nonneg_right hC hw.le
  have C0 : 0 ≤ C := le_trans (by have : 0 ≤ B := by linarith
                                  positivity) hC
  obtain ⟨o, r⟩ := ap_round h hB hB' hB'' C0 hc hC'
  exact ⟨_, h1.div h3 hbne o, r⟩

end Gcem
