import Mathlib.Analysis.SpecialFunctions.Trigonometric.Arctan
import Mathlib.Analysis.SpecialFunctions.Trigonometric.ArctanDeriv
import Mathlib.Analysis.SpecialFunctions.Trigonometric.Bounds
import Mathlib.Analysis.Calculus.Deriv.MeanValue
import Verif.Analysis.Consts

/-!
# The continued fraction of the tangent

`tanB n` are iterated integrals of the sine (`tanB (n+1)` is the integral of `t * tanB n t`), and
`tanT d x = x^2 * tanB (d-2) x / tanB (d-1) x` are the tails of the continued fraction.
-/

namespace Gcem
open Real

noncomputable def tanB : ℕ → ℝ → ℝ
  | 0, x => sin x
  | 1, x => sin x - x * cos x
  | n + 2, x => (2 * n + 3) * tanB (n + 1) x - x ^ 2 * tanB n x

theorem tanB_zero_pt (n : ℕ) : tanB n 0 = 0 := by
  induction n using Nat.twoStepInduction with
  | zero => simp [tanB]
  | one => simp [tanB]
  | more n h1 h2 => simp [tanB, h2]

theorem tanB_deriv (n : ℕ) (x : ℝ) : HasDerivAt (tanB (n + 1)) (x * tanB n x) x := by
  induction n using Nat.twoStepInduction with
  | zero =>
    have h : HasDerivAt (fun x => sin x - x * cos x) (cos x - (1 * cos x + x * -sin x)) x :=
      (hasDerivAt_sin x).sub ((hasDerivAt_id x).mul (hasDerivAt_cos x))
    exact h.congr_deriv (by simp [tanB])
  | one =>
    have h0 : HasDerivAt (fun x => sin x - x * cos x) (cos x - (1 * cos x + x * -sin x)) x :=
      (hasDerivAt_sin x).sub ((hasDerivAt_id x).mul (hasDerivAt_cos x))
    have h := (h0.const_mul 3).sub (((hasDerivAt_pow 2 x)).mul (hasDerivAt_sin x))
    have e : tanB (1 + 1) = fun x => 3 * (sin x - x * cos x) - x ^ 2 * sin x := by
      funext x; simp [tanB]
    rw [e]
    refine h.congr_deriv ?_
    simp [tanB]; ring
  | more n h1 h2 =>
    have h := ((h2).const_mul (2 * ((n + 1 : ℕ):ℝ) + 3)).sub ((hasDerivAt_pow 2 x).mul h1)
    have e : tanB (n + 2 + 1) = fun x => (2 * ((n + 1 : ℕ):ℝ) + 3) * tanB (n + 1 + 1) x - x ^ 2 * tanB (n + 1) x := by
      funext x; rw [show n + 2 + 1 = n + 1 + 2 by ring, tanB]
    rw [e]
    refine h.congr_deriv ?_
    have e2 : tanB (n + 2) x = (2 * n + 3) * tanB (n + 1) x - x ^ 2 * tanB n x := by rw [tanB]
    rw [e2]
    push_cast; ring

/-- a function vanishing at zero with positive derivative on `(0, b]` is positive there -/
theorem pos_of_deriv_pos {g g' : ℝ → ℝ} {b : ℝ} (h : ∀ x, HasDerivAt g (g' x) x) (h0 : g 0 = 0)
    (hp : ∀ x, 0 < x → x ≤ b → 0 < g' x) {x : ℝ} (hx : 0 < x) (hb : x ≤ b) : 0 < g x := by
  have : StrictMonoOn g (Set.Icc 0 b) := by
    refine strictMonoOn_of_deriv_pos (convex_Icc 0 b) (fun t _ => (h t).continuousAt.continuousWithinAt) ?_
    intro t ht
    rw [interior_Icc] at ht
    rw [(h t).deriv]; exact hp t ht.1 ht.2.le
  rw [← h0]
  exact this ⟨le_rfl, by linarith⟩ ⟨hx.le, hb⟩ hx

theorem nonneg_of_deriv_nonneg {g g' : ℝ → ℝ} {b : ℝ} (h : ∀ x, HasDerivAt g (g' x) x) (h0 : g 0 = 0)
    (hp : ∀ x, 0 < x → x ≤ b → 0 ≤ g' x) {x : ℝ} (hx : 0 < x) (hb : x ≤ b) : 0 ≤ g x := by
  have : MonotoneOn g (Set.Icc 0 b) := by
    refine monotoneOn_of_deriv_nonneg (convex_Icc 0 b) (fun t _ => (h t).continuousAt.continuousWithinAt)
      (fun t _ => (h t).differentiableAt.differentiableWithinAt) ?_
    intro t ht
    rw [interior_Icc] at ht
    rw [(h t).deriv]; exact hp t ht.1 ht.2.le
  rw [← h0]
  exact this ⟨le_rfl, by linarith⟩ ⟨hx.le, hb⟩ hx.le

theorem pi_bounds : 31415 / 10000 < π ∧ π < 31416 / 10000 := by
  have h := abs_le.1 PI_err
  have l : ((314155 / 100000 : ℚ) : ℝ) ≤ ((PI : ℚ) : ℝ) := Rat.cast_le.2 (by decide +kernel)
  have u : ((PI : ℚ) : ℝ) ≤ ((314159955 / 100000000 : ℚ) : ℝ) := Rat.cast_le.2 (by decide +kernel)
  push_cast at l u h
  norm_num only at h l u ⊢
  constructor <;> linarith

theorem tanB_one_pos {x : ℝ} (hx : 0 < x) (hb : x ≤ 315 / 100) : 0 < tanB 1 x := by
  have hp := pi_bounds
  rcases le_or_gt x π with h | h
  · -- increasing up to `π`
    have : StrictMonoOn (tanB 1) (Set.Icc 0 π) := by
      refine strictMonoOn_of_deriv_pos (convex_Icc 0 π) (fun t _ => (tanB_deriv 0 t).continuousAt.continuousWithinAt) ?_
      intro t ht
      rw [interior_Icc] at ht
      rw [(tanB_deriv 0 t).deriv]
      exact mul_pos ht.1 (sin_pos_of_pos_of_lt_pi ht.1 ht.2)
    have := this ⟨le_rfl, by linarith⟩ ⟨hx.le, h⟩ hx
    rwa [tanB_zero_pt] at this
  · have c : cos x ≤ -(1 / 2) := by
      have e : cos x = -cos (x - π) := by rw [cos_sub_pi, neg_neg]
      have := one_sub_sq_div_two_le_cos (x := x - π)
      rw [e]
      nlinarith
    have s := abs_le.1 (abs_sin_le_one x)
    have s1 : -(1 / 10) ≤ sin x := by
      have e : sin x = -sin (x - π) := by rw [sin_sub_pi, neg_neg]
      have := sin_lt (show 0 < x - π by linarith)
      rw [e]; linarith
    simp only [tanB]
    nlinarith

theorem tanB_pos (n : ℕ) {x : ℝ} (hx : 0 < x) (hb : x ≤ 315 / 100) : 0 < tanB (n + 1) x := by
  induction n generalizing x with
  | zero => exact tanB_one_pos hx hb
  | succ n ih =>
    exact pos_of_deriv_pos (g := tanB (n + 1 + 1)) (g' := fun x => x * tanB (n + 1) x) (tanB_deriv (n + 1))
      (tanB_zero_pt _) (fun t h0 h1 => mul_pos h0 (ih h0 h1)) hx hb

theorem tanB_half (n : ℕ) {x : ℝ} (hx : 0 < x) (hb : x ≤ 315 / 100) : tanB (n + 3) x ≤ tanB (n + 2) x * x ^ 2 / 2 := by
  have h := nonneg_of_deriv_nonneg (g := fun x => tanB (n + 2) x * x ^ 2 / 2 - tanB (n + 3) x)
    (g' := fun x => x ^ 3 * tanB (n + 1) x / 2) (b := 315 / 100) (by
      intro t
      have := (((tanB_deriv (n + 1) t).mul (hasDerivAt_pow 2 t)).div_const 2).sub (tanB_deriv (n + 2) t)
      refine this.congr_deriv ?_
      push_cast; ring) (by simp [tanB_zero_pt]) (fun t h0 h1 => by
        have := tanB_pos n h0 h1; positivity) hx hb
  linarith

/-- the tails of the continued fraction, `d ≥ 2` -/
noncomputable def tanT (d : ℕ) (x : ℝ) : ℝ := x ^ 2 * tanB (d - 2) x / tanB (d - 1) x

theorem tanT_rec (n : ℕ) {x : ℝ} (hx : 0 < x) (hb : x ≤ 315 / 100) :
    tanT (n + 2) x = 2 * n + 3 - x ^ 2 / tanT (n + 3) x := by
  unfold tanT
  simp only [show n + 2 - 2 = n by omega, show n + 2 - 1 = n + 1 by omega, show n + 3 - 2 = n + 1 by omega,
    show n + 3 - 1 = n + 2 by omega]
  have h1 := (tanB_pos n hx hb).ne'
  have h2 := (tanB_pos (n + 1) hx hb).ne'
  have e : tanB (n + 2) x = (2 * n + 3) * tanB (n + 1) x - x ^ 2 * tanB n x := by rw [tanB]
  have e2 : x ^ 2 / (x ^ 2 * tanB (n + 1) x / tanB (n + 2) x) = tanB (n + 2) x / tanB (n + 1) x := by
    field_simp
  rw [e2, e]
  field_simp
  ring

theorem tanT_pos (n : ℕ) {x : ℝ} (hx : 0 < x) (hb : x ≤ 315 / 100) : 0 < tanT (n + 3) x := by
  unfold tanT
  have h1 := tanB_pos n hx hb
  have h2 := tanB_pos (n + 1) hx hb
  rw [show n + 3 - 2 = n + 1 by omega, show n + 3 - 1 = n + 1 + 1 by omega]
  positivity

theorem tanT_two (n : ℕ) {x : ℝ} (hx : 0 < x) (hb : x ≤ 315 / 100) : 2 ≤ tanT (n + 4) x := by
  unfold tanT
  rw [show n + 4 - 2 = n + 2 by omega, show n + 4 - 1 = n + 3 by omega]
  have h1 := tanB_half n hx hb
  have h2 := tanB_pos (n + 2) hx hb
  rw [le_div_iff₀ h2]
  linarith

theorem tanT_bounds (n : ℕ) {x : ℝ} (hx : 0 < x) (hb : x ≤ 315 / 100) :
    2 * (n:ℝ) + 3 ≤ tanT (n + 3) x ∧ tanT (n + 3) x ≤ 2 * n + 5 := by
  have s0 : 0 < x ^ 2 := by positivity
  have s1 : x ^ 2 ≤ 10 := by nlinarith
  have up : ∀ n : ℕ, tanT (n + 3) x ≤ 2 * n + 5 := by
    intro n
    have h := tanT_rec (n + 1) hx hb
    have p := tanT_pos (n + 1) hx hb
    have : 0 ≤ x ^ 2 / tanT (n + 1 + 3) x := by positivity
    rw [show n + 1 + 2 = n + 3 by ring] at h
    rw [h]; push_cast; linarith
  -- a step of the recursion
  have st : ∀ (n : ℕ) (L : ℝ), 0 < L → L ≤ tanT (n + 4) x → 2 * n + 5 - 10 / L ≤ tanT (n + 3) x := by
    intro n L hL h
    have r := tanT_rec (n + 1) hx hb
    rw [show n + 1 + 2 = n + 3 by ring, show n + 1 + 3 = n + 4 by ring] at r
    rw [r]
    have : x ^ 2 / tanT (n + 4) x ≤ 10 / L := div_le_div₀ (by norm_num) s1 hL h
    push_cast; linarith
  have l1 : ∀ n : ℕ, 2 * (n:ℝ) ≤ tanT (n + 3) x := by
    intro n
    have := st n 2 (by norm_num) (tanT_two n hx hb)
    linarith
  have l2 : ∀ n : ℕ, 2 ≤ n → 2 * (n:ℝ) + 3 ≤ tanT (n + 3) x := by
    intro n hn
    have hn' : (2:ℝ) ≤ n := by exact_mod_cast hn
    have a := l1 (n + 1)
    push_cast at a
    have := st n (2 * n + 2) (by linarith) (by rw [show n + 4 = n + 1 + 3 by ring]; linarith)
    have k : 10 / (2 * (n:ℝ) + 2) ≤ 2 := by rw [div_le_iff₀ (by linarith)]; linarith
    linarith
  have l3 : 2 * ((1:ℕ):ℝ) + 3 ≤ tanT (1 + 3) x := by
    have a := l2 2 le_rfl
    have := st 1 7 (by norm_num) (by norm_num at a ⊢; exact a)
    push_cast at this ⊢
    norm_num at this ⊢
    linarith
  refine ⟨?_, up n⟩
  rcases n with _ | _ | n
  · have := st 0 5 (by norm_num) (by norm_num at l3 ⊢; exact l3)
    push_cast at this ⊢
    norm_num at this ⊢
    linarith
  · exact l3
  · exact l2 (n + 2) (by omega)

/-- `sin` and `cos` in terms of the second tail -/
noncomputable def tanK (x : ℝ) : ℝ := tanB 1 x / x ^ 3

theorem tanK_bounds {x : ℝ} (hx : 0 < x) (hb : x ≤ 315 / 100) : 0 < tanK x ∧ tanK x ≤ 1 / 3 := by
  have h1 := tanB_pos 0 hx hb
  unfold tanK
  refine ⟨by positivity, ?_⟩
  rw [div_le_iff₀ (by positivity)]
  have := nonneg_of_deriv_nonneg (g := fun x => x ^ 3 / 3 - tanB 1 x) (g' := fun x => x ^ 2 - x * sin x) (b := 315 / 100) (by
    intro t
    have := ((hasDerivAt_pow 3 t).div_const 3).sub (tanB_deriv 0 t)
    refine this.congr_deriv ?_
    simp [tanB]) (by simp [tanB_zero_pt]) (fun t h0 h1 => by
      have := sin_lt h0; nlinarith) hx hb
  linarith

theorem sin_eq_tanT {x : ℝ} (hx : 0 < x) (hb : x ≤ 315 / 100) : sin x = tanK x * x * tanT 2 x := by
  have h1 := (tanB_pos 0 hx hb).ne'
  unfold tanK tanT
  simp only [Nat.sub_self, show 2 - 1 = 1 from rfl]
  have : tanB 0 x = sin x := rfl
  rw [this]
  field_simp

theorem cos_eq_tanT {x : ℝ} (hx : 0 < x) (hb : x ≤ 315 / 100) : cos x = tanK x * (tanT 2 x - x ^ 2) := by
  have h1 := (tanB_pos 0 hx hb).ne'
  unfold tanK tanT
  simp only [Nat.sub_self, show 2 - 1 = 1 from rfl]
  have : tanB 0 x = sin x := rfl
  rw [this]
  have e : tanB 1 x = sin x - x * cos x := rfl
  field_simp
  rw [e]; ring

theorem abs_arctan_le (y : ℝ) : |arctan y| ≤ |y| := by
  have key : ∀ y : ℝ, 0 ≤ y → arctan y ≤ y := by
    intro y hy
    have := le_tan (arctan_nonneg.2 hy) (arctan_lt_pi_div_two y)
    rwa [tan_arctan] at this
  rcases le_total 0 y with h | h
  · rw [abs_of_nonneg h, abs_of_nonneg (arctan_nonneg.2 h)]; exact key y h
  · have := key (-y) (by linarith)
    have h2 := arctan_nonneg.2 (show 0 ≤ -y by linarith)
    rw [arctan_neg] at this h2
    rw [abs_of_nonpos h, abs_of_nonpos (by linarith)]; exact this

/-- a quotient as the tangent of a nearby angle -/
theorem tan_backward {x N D : ℝ} (hD : D ≠ 0) (hP : 0 < N * sin x + D * cos x) :
    ∃ θ, tan θ = N / D ∧ cos θ ≠ 0 ∧ |θ - x| ≤ |N * cos x - D * sin x| / (N * sin x + D * cos x) := by
  set P := N * sin x + D * cos x with hPd
  set X := N * cos x - D * sin x with hX
  set φ := arctan (X / P) with hφ
  have cφ : 0 < cos φ := cos_arctan_pos _
  have tφ : sin φ = X / P * cos φ := by
    have := tan_arctan (X / P)
    rw [tan_eq_sin_div_cos, div_eq_iff (cos_arctan_pos _).ne'] at this
    exact this
  have sc := sin_sq_add_cos_sq x
  have s1 : sin (x + φ) = cos φ / P * N := by
    rw [sin_add, tφ]
    have : sin x * P + cos x * X = N := by rw [hPd, hX]; linear_combination N * sc
    field_simp
    linear_combination this
  have c1 : cos (x + φ) = cos φ / P * D := by
    rw [cos_add, tφ]
    have : cos x * P - sin x * X = D := by rw [hPd, hX]; linear_combination D * sc
    field_simp
    linear_combination this
  refine ⟨x + φ, ?_, ?_, ?_⟩
  · rw [tan_eq_sin_div_cos, s1, c1]
    have : cos φ / P ≠ 0 := by positivity
    field_simp
  · rw [c1]
    have : cos φ / P ≠ 0 := by positivity
    exact mul_ne_zero this hD
  · rw [add_sub_cancel_left, hφ]
    have := abs_arctan_le (X / P)
    rw [abs_div, abs_of_pos hP] at this
    exact this

/-- the weight `s T² + (T − s)²` dominates the error terms -/
theorem tan_weight {s T Q : ℝ} (s0 : 0 < s) (T0 : 3 - s / 3 ≤ T) (T1 : T ≤ 3) (Tab : |T| ≤ 3) (hQ : Q = s * T ^ 2 + (T - s) ^ 2) (Q9 : 9 ≤ Q) :
    s ≤ 39 / 100 * Q ∧ |T| * |T - s| ≤ Q ∧ s * |T| ≤ 112 / 100 * Q := by
  have q1 : s ≤ 39 / 100 * Q := by
    rcases le_total s (7 / 2) with h | h
    · linarith
    · have e : (1 + s) * Q - s ^ 3 = ((1 + s) * T - s) ^ 2 := by rw [hQ]; ring
      have : s ^ 3 ≤ (1 + s) * Q := by linarith [sq_nonneg ((1 + s) * T - s)]
      by_contra hn
      have h5 : (1 + s) * Q ≤ (1 + s) * (100 / 39 * s) := mul_le_mul_of_nonneg_left (by linarith) (by linarith)
      have h6 : s * (s ^ 2) ≤ s * (100 / 39 * (1 + s)) := by linarith
      have h7 := le_of_mul_le_mul_left h6 s0
      have h8 := mul_le_mul_of_nonneg_right h s0.le
      linarith [sq s]
  have q2 : |T| * |T - s| ≤ Q := by
    rcases le_total s (1 / 4) with h | h
    · have : |T - s| ≤ 3 := by rw [abs_le]; constructor <;> linarith
      calc |T| * |T - s| ≤ 3 * 3 := mul_le_mul Tab this (abs_nonneg _) (by norm_num)
        _ ≤ Q := by linarith
    · rw [hQ, ← sq_abs T, ← sq_abs (T - s)]
      have := mul_le_mul_of_nonneg_right h (sq_nonneg |T|)
      nlinarith [sq_nonneg (|T| / 2 - |T - s|)]
  have q3 : s * |T| ≤ 112 / 100 * Q := by
    rcases le_total s (11 / 10) with h | h
    · have : s * |T| ≤ 11 / 10 * 3 := mul_le_mul h Tab (abs_nonneg _) (by norm_num)
      linarith
    · have hTT : T ≤ |T| := le_abs_self T
      have e : Q = (s + 1) * |T| ^ 2 - 2 * s * T + s ^ 2 := by rw [hQ, sq_abs]; ring
      have : (21 / 10) * |T| ^ 2 ≤ (s + 1) * |T| ^ 2 := mul_le_mul_of_nonneg_right (by linarith) (sq_nonneg _)
      have : s * T ≤ s * |T| := mul_le_mul_of_nonneg_left hTT s0.le
      nlinarith [sq_nonneg (145 / 100 * |T| - s), mul_nonneg s0.le (abs_nonneg T)]
  exact ⟨q1, q2, q3⟩

/-- how far the angle of the computed quotient is from the argument -/
theorem tan_final {x a ε δ₂ δ₃ w : ℝ} (hx0 : 0 < x) (hx1 : x ≤ 315 / 100) (hc : 1 / 200 ≤ |cos x|) (hw0 : 0 < w) (hw1 : w ≤ 1 / 10000000)
    (ha : |a - tanT 2 x| ≤ 27 * w) (hε : |ε| ≤ 201 / 100 * w) (h2 : |δ₂| ≤ w) (h3 : |δ₃| ≤ w) :
    1 / 100 ≤ |a - x ^ 2 * (1 + ε)| ∧
    ∃ θ, tan θ = x * a * (1 + δ₃) / ((1 + δ₂) * (a - x ^ 2 * (1 + ε))) ∧ cos θ ≠ 0 ∧ |θ - x| ≤ 15 * w * x := by
  have hs := sin_eq_tanT hx0 hx1
  have hcs := cos_eq_tanT hx0 hx1
  obtain ⟨k0, k1⟩ := tanK_bounds hx0 hx1
  have hT3 := tanT_bounds 0 hx0 hx1
  have hrec := tanT_rec 0 hx0 hx1
  norm_num only [Nat.cast_zero, zero_add, mul_zero] at hT3 hrec
  have s0 : 0 < x ^ 2 := by positivity
  have s1 : x ^ 2 ≤ 99225 / 10000 := by nlinarith
  have hq0 : 0 ≤ x ^ 2 / tanT 3 x := div_nonneg s0.le (by linarith [hT3.1])
  have hq1 : x ^ 2 / tanT 3 x ≤ x ^ 2 / 3 := div_le_div_of_nonneg_left s0.le (by norm_num) hT3.1
  set k := tanK x with hk
  set T := tanT 2 x with hT
  generalize x ^ 2 / tanT 3 x = q at *
  have hss := sin_sq_add_cos_sq x
  have hs' : sin x = k * x * T := hs
  have hc' : cos x = k * (T - x ^ 2) := hcs
  obtain ⟨s, hsd⟩ : ∃ s, s = x ^ 2 := ⟨_, rfl⟩
  rw [← hsd] at s0 s1 hq1 hc' ⊢
  clear hcs hs
  have T1 : T ≤ 3 := by linarith
  have T0 : 3 - s / 3 ≤ T := by linarith
  have Tab : |T| ≤ 3 := by rw [abs_le]; constructor <;> linarith
  obtain ⟨Q, hQ⟩ : ∃ Q, Q = s * T ^ 2 + (T - s) ^ 2 := ⟨_, rfl⟩
  have hkQ : k ^ 2 * Q = 1 := by
    rw [hQ, ← hss, hs', hc', hsd]; ring
  have Q9 : 9 ≤ Q := by
    have : k ^ 2 ≤ 1 / 9 := by nlinarith
    have Q0 : 0 < Q := by
      by_contra h
      have : k ^ 2 * Q ≤ 0 := mul_nonpos_of_nonneg_of_nonpos (by positivity) (by linarith)
      linarith
    nlinarith
  obtain ⟨q1, q2, q3⟩ := tan_weight s0 T0 T1 Tab hQ Q9
  -- the denominator
  have Ts : 3 / 200 ≤ |T - s| := by
    rw [hc', abs_mul, abs_of_pos k0] at hc
    have := mul_le_mul_of_nonneg_right k1 (abs_nonneg (T - s))
    linarith
  have Tsu : |T - s| ≤ 11 := by rw [abs_le]; constructor <;> linarith
  have se : |s * ε| ≤ 2011 / 100 * w := by
    rw [abs_mul, abs_of_pos s0]
    calc s * |ε| ≤ 10 * (201 / 100 * w) := mul_le_mul (by linarith) hε (abs_nonneg _) (by norm_num)
      _ ≤ _ := by linarith
  obtain ⟨e, he⟩ : ∃ e, e = a - T := ⟨_, rfl⟩
  rw [← he] at ha
  have hD' : a - s * (1 + ε) = (T - s) + (e - s * ε) := by rw [he]; ring
  have esε : |e - s * ε| ≤ 48 * w := (abs_sub _ _).trans (by linarith)
  have hD0 : 1 / 100 ≤ |a - s * (1 + ε)| := by
    rw [hD']
    have := abs_sub_abs_le_abs_sub (T - s) (-(e - s * ε))
    rw [abs_neg, sub_neg_eq_add] at this
    linarith
  refine ⟨hD0, ?_⟩
  have hDu : |a - s * (1 + ε)| ≤ 12 := by
    rw [hD']; exact (abs_add_le _ _).trans (by linarith)
  have hau : |a| ≤ 4 := by
    have : a = T + e := by rw [he]; ring
    rw [this]; exact (abs_add_le _ _).trans (by linarith)
  have hD : (1 + δ₂) * (a - s * (1 + ε)) ≠ 0 := by
    have h := abs_le.1 h2
    refine mul_ne_zero (by linarith) ?_
    intro h0; rw [h0, abs_zero] at hD0; linarith
  have eP : x * a * (1 + δ₃) * sin x + (1 + δ₂) * (a - s * (1 + ε)) * cos x =
      k * (Q + (s * T * e + s * T * (δ₃ * a) + (T - s) * (e - s * ε) + (T - s) * (δ₂ * (a - s * (1 + ε))))) := by
    rw [hs', hc', hQ, he, hsd]; ring
  have b1 : |s * T * e| ≤ 1000 * w := by
    rw [abs_mul, abs_mul, abs_of_pos s0]
    calc s * |T| * |e| ≤ 10 * 3 * (27 * w) := mul_le_mul (mul_le_mul (by linarith) Tab (abs_nonneg _) (by norm_num)) ha (abs_nonneg _) (by norm_num)
      _ ≤ _ := by linarith
  have b2 : |s * T * (δ₃ * a)| ≤ 1000 * w := by
    rw [abs_mul, abs_mul, abs_mul, abs_of_pos s0]
    calc s * |T| * (|δ₃| * |a|) ≤ 10 * 3 * (w * 4) := mul_le_mul (mul_le_mul (by linarith) Tab (abs_nonneg _) (by norm_num))
          (mul_le_mul h3 hau (abs_nonneg _) hw0.le) (by positivity) (by norm_num)
      _ ≤ _ := by linarith
  have b3 : |(T - s) * (e - s * ε)| ≤ 1000 * w := by
    rw [abs_mul]
    calc _ ≤ 11 * (48 * w) := mul_le_mul Tsu esε (abs_nonneg _) (by norm_num)
      _ ≤ _ := by linarith
  have b4 : |(T - s) * (δ₂ * (a - s * (1 + ε)))| ≤ 1000 * w := by
    rw [abs_mul, abs_mul]
    calc _ ≤ 11 * (w * 12) := mul_le_mul Tsu (mul_le_mul h2 hDu (abs_nonneg _) hw0.le) (by positivity) (by norm_num)
      _ ≤ _ := by linarith
  have P1 : k * (999 / 1000 * Q) ≤ x * a * (1 + δ₃) * sin x + (1 + δ₂) * (a - s * (1 + ε)) * cos x := by
    rw [eP]
    refine mul_le_mul_of_nonneg_left ?_ k0.le
    have := (abs_le.1 b1).1
    have := (abs_le.1 b2).1
    have := (abs_le.1 b3).1
    have := (abs_le.1 b4).1
    linarith
  have kQ : 0 < k * (999 / 1000 * Q) := by
    have : 0 < Q := by linarith
    positivity
  obtain ⟨θ, t1, t2, t3⟩ := tan_backward (x := x) (N := x * a * (1 + δ₃)) (D := (1 + δ₂) * (a - s * (1 + ε))) hD (lt_of_lt_of_le kQ P1)
  refine ⟨θ, t1, t2, t3.trans ?_⟩
  rw [div_le_iff₀ (lt_of_lt_of_le kQ P1)]
  have eX : x * a * (1 + δ₃) * cos x - (1 + δ₂) * (a - s * (1 + ε)) * sin x =
      k * x * (-(s * e) + δ₃ * (T * (T - s)) + δ₃ * (e * (T - s)) + (-(δ₂ * (T * (T - s)))) + (-(δ₂ * ((e - s * ε) * T))) + ε * (s * T)) := by
    rw [hs', hc', he, hsd]; ring
  have c1 : |-(s * e)| ≤ 27 * w * (39 / 100 * Q) := by
    rw [abs_neg, abs_mul, abs_of_pos s0]
    calc s * |e| ≤ 39 / 100 * Q * (27 * w) := mul_le_mul q1 ha (abs_nonneg _) (by linarith)
      _ = _ := by ring
  have c2 : |δ₃ * (T * (T - s))| ≤ w * Q := by
    rw [abs_mul, abs_mul]; exact mul_le_mul h3 q2 (by positivity) hw0.le
  have c3 : |δ₃ * (e * (T - s))| ≤ w * (1 / 1000) := by
    rw [abs_mul, abs_mul]
    refine mul_le_mul h3 ?_ (by positivity) hw0.le
    calc _ ≤ 27 * w * 11 := mul_le_mul ha Tsu (abs_nonneg _) (by positivity)
      _ ≤ _ := by linarith
  have c4 : |-(δ₂ * (T * (T - s)))| ≤ w * Q := by
    rw [abs_neg, abs_mul, abs_mul]; exact mul_le_mul h2 q2 (by positivity) hw0.le
  have c5 : |-(δ₂ * ((e - s * ε) * T))| ≤ w * (1 / 1000) := by
    rw [abs_neg, abs_mul, abs_mul]
    refine mul_le_mul h2 ?_ (by positivity) hw0.le
    calc _ ≤ 48 * w * 3 := mul_le_mul esε Tab (abs_nonneg _) (by positivity)
      _ ≤ _ := by linarith
  have c6 : |ε * (s * T)| ≤ 201 / 100 * w * (112 / 100 * Q) := by
    rw [abs_mul, abs_mul, abs_of_pos s0]; exact mul_le_mul hε q3 (by positivity) (by positivity)
  have tot : |-(s * e) + δ₃ * (T * (T - s)) + δ₃ * (e * (T - s)) + (-(δ₂ * (T * (T - s)))) + (-(δ₂ * ((e - s * ε) * T))) + ε * (s * T)|
      ≤ 149 / 10 * (w * Q) := by
    have wQ : w * 9 ≤ w * Q := mul_le_mul_of_nonneg_left Q9 hw0.le
    refine (abs_add_le _ _).trans ?_
    have h1 := abs_add_le (-(s * e) + δ₃ * (T * (T - s)) + δ₃ * (e * (T - s)) + (-(δ₂ * (T * (T - s))))) (-(δ₂ * ((e - s * ε) * T)))
    have h2 := abs_add_le (-(s * e) + δ₃ * (T * (T - s)) + δ₃ * (e * (T - s))) (-(δ₂ * (T * (T - s))))
    have h3 := abs_add_le (-(s * e) + δ₃ * (T * (T - s))) (δ₃ * (e * (T - s)))
    have h4 := abs_add_le (-(s * e)) (δ₃ * (T * (T - s)))
    linarith
  rw [eX, abs_mul, abs_of_pos (show 0 < k * x by positivity)]
  calc _ ≤ k * x * (149 / 10 * (w * Q)) := mul_le_mul_of_nonneg_left tot (by positivity)
    _ ≤ 15 * w * x * (k * (999 / 1000 * Q)) := by
      have : 0 ≤ k * x * (w * Q) := by
        have : 0 < Q := by linarith
        positivity
      linarith
    _ ≤ _ := mul_le_mul_of_nonneg_left P1 (by positivity)

end Gcem
