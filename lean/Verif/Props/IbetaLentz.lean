import Verif.Props.IbetaCf

/-!
# Lentz's algorithm for incomplete_beta in floating point
-/

namespace Gcem.Props
open Gcem FV IB
variable {f : Fmt}

/-! ### one step over the reals -/

theorem ib_core {u α c c' α' p q s A E : ℝ} (hu : 0 < u) (hu7 : u ≤ 1 / 10 ^ 7) (hc : 1 / 12 ≤ c) (hc' : 1 / 12 ≤ c') (e' : c' = 1 + α / c)
    (hA0 : 0 ≤ A) (hA : |α| / c ≤ A * c') (hα : |α' - α| ≤ 101 / 10 * u * |α| + u / 700) (hE0 : 0 ≤ E) (hE : E * u ≤ 11 / 10000)
    (hp : |p * c - 1| ≤ E * u) (hq : |q - α' * p| ≤ u * |α' * p| + u / 1000) (hs : |s - (1 + q)| ≤ u * |1 + q|) :
    |s - c'| ≤ (1002 / 1000 * A * (E + 112 / 10) + 125 / 100) * u * c' := by
  have hc0 : 0 < c := by linarith
  have hu2 : u * u ≤ 1 / 10 ^ 7 * u := by gcongr
  norm_num only at hu7 hu2
  have p1 : |p| * c ≤ 10011 / 10000 := by
    have := abs_add_le (p * c - 1) 1
    rw [sub_add_cancel, abs_mul, abs_of_pos hc0, abs_one] at this
    linarith
  have p2 : |p| ≤ 1202 / 100 := by
    by_contra hcon
    push Not at hcon
    nlinarith
  set X := |α| / c with hX
  have hX0 : 0 ≤ X := by positivity
  have hαX : |α| = X * c := by rw [hX]; field_simp
  have e1 : |(α' - α) * p| ≤ 10112 / 1000 * u * X + 172 / 10000 * u := by
    rw [abs_mul]
    have h1 := mul_le_mul_of_nonneg_right hα (abs_nonneg p)
    rw [hαX] at h1
    have h2 := mul_le_mul_of_nonneg_left p1 (show 0 ≤ 101 / 10 * u * X by positivity)
    have h3 := mul_le_mul_of_nonneg_left p2 (show 0 ≤ u / 700 by positivity)
    have : 0 ≤ u * X := by positivity
    linarith
  have e2 : |α / c * (p * c - 1)| ≤ E * u * X := by
    rw [abs_mul, abs_div, abs_of_pos hc0, ← hX, mul_comm]
    exact mul_le_mul_of_nonneg_right hp hX0
  have e3 : |α' * p - α / c| ≤ (E + 10112 / 1000) * u * X + 172 / 10000 * u := by
    have : α' * p - α / c = (α' - α) * p + α / c * (p * c - 1) := by field_simp; ring
    rw [this]
    refine (abs_add_le _ _).trans ?_
    linarith
  have hEX : E * u * X ≤ 11 / 10000 * X := mul_le_mul_of_nonneg_right hE hX0
  have huX : u * X ≤ 1 / 10 ^ 7 * X := mul_le_mul_of_nonneg_right (by norm_num only at hu7 ⊢; exact hu7) hX0
  norm_num only at huX
  have e4 : |α' * p| ≤ 10012 / 10000 * X + u := by
    have := abs_add_le (α' * p - α / c) (α / c)
    rw [sub_add_cancel, abs_div α, abs_of_pos hc0, ← hX] at this
    linarith
  have e5 : |q - α / c| ≤ (E + 11114 / 1000) * u * X + 183 / 10000 * u := by
    have := abs_sub_le q (α' * p) (α / c)
    have h2 := mul_le_mul_of_nonneg_left e4 hu.le
    have : 0 ≤ u * X := by positivity
    linarith
  have e6 : |s - c'| ≤ (1 + u) * |q - α / c| + u * c' := by
    have h1 : s - c' = (s - (1 + q)) + (q - α / c) := by rw [e']; ring
    have h2 : |1 + q| ≤ |q - α / c| + c' := by
      have := abs_add_le (q - α / c) c'
      rw [abs_of_pos (by linarith : 0 < c')] at this
      refine le_trans (le_of_eq ?_) this
      rw [e']; congr 1; ring
    rw [h1]
    refine (abs_add_le _ _).trans ?_
    have h3 := mul_le_mul_of_nonneg_left h2 hu.le
    linarith
  have e7 : (1 + u) * |q - α / c| ≤ 10001 / 10000 * ((E + 11114 / 1000) * u * X + 183 / 10000 * u) := by
    refine mul_le_mul (by linarith) e5 (abs_nonneg _) (by norm_num)
  have e8 := mul_le_mul_of_nonneg_left hA (show 0 ≤ E * u by positivity)
  have e9 := mul_le_mul_of_nonneg_left hA hu.le
  have e10 := mul_le_mul_of_nonneg_left hc' hu.le
  have e11 : 0 ≤ A * (E * u * c') := by have : 0 < c' := by linarith
                                        positivity
  have e12 : 0 ≤ A * (u * c') := by have : 0 < c' := by linarith
                                    positivity
  linarith

theorem ib_amp {α c c' l l' P : ℝ} (hl : 0 < l) (hl' : 0 < l') (hc : l ≤ c) (hc' : l' ≤ c') (hP : 0 ≤ P) (hα : α ≤ P) (e' : c' = 1 + α / c) :
    |α| / c ≤ max (1 / l' - 1) (P / (l + P)) * c' := by
  have hc0 : 0 < c := by linarith
  have hc0' : 0 < c' := by linarith
  rcases le_total α 0 with h | h
  · refine le_trans ?_ (mul_le_mul_of_nonneg_right (le_max_left _ _) hc0'.le)
    have : 1 ≤ 1 / l' * c' := by rw [one_div, inv_mul_eq_div, one_le_div hl']; exact hc'
    rw [abs_of_nonpos h, neg_div]
    linarith
  · refine le_trans ?_ (mul_le_mul_of_nonneg_right (le_max_right _ _) hc0'.le)
    rw [abs_of_nonneg h, e', show P / (l + P) * (1 + α / c) = P * (c + α) / ((l + P) * c) by field_simp, div_le_div_iff₀ hc0 (by positivity)]
    have : α * l ≤ P * c := mul_le_mul hα hc hl.le hP
    nlinarith

theorem ib_inv_rel {u x c E : ℝ} (hc : 0 < c) (hE : 0 ≤ E) (hu : 0 < u) (h : |x - c| ≤ E * u * c) (hEu : E * u ≤ 1 / 1000) :
    0 < x ∧ |1 / x * c - 1| ≤ 1002 / 1000 * E * u := by
  have h1 := (abs_le.1 h).1
  have h2 : E * u * c ≤ 1 / 1000 * c := mul_le_mul_of_nonneg_right hEu hc.le
  have hx : 0 < x := by linarith
  refine ⟨hx, ?_⟩
  rw [show 1 / x * c - 1 = (c - x) / x by field_simp, abs_div, abs_of_pos hx, div_le_iff₀ hx, abs_sub_comm]
  refine h.trans ?_
  have h3 : (999 / 1000) * c ≤ x := by linarith
  have := mul_le_mul_of_nonneg_left h3 (show 0 ≤ E * u by positivity)
  have : 0 ≤ E * u * c := by positivity
  nlinarith

theorem ib_prod {u φ c t T E f' c' d p q : ℝ} (hu : 0 < u) (hφ : 0 < φ) (hc : 0 < c) (ht : 0 < t) (hu7 : u ≤ 1 / 10 ^ 7)
    (hT0 : 0 ≤ T) (hE0 : 0 ≤ E) (hT : T * u ≤ 1 / 1000) (hE : E * u ≤ 1 / 1000)
    (hf : |f' - φ| ≤ T * u * φ) (hc' : |c' - c| ≤ E * u * c) (hd : |d * t - 1| ≤ E * u)
    (hp : |p - f' * c'| ≤ u * |f' * c'|) (hq : |q - p * d| ≤ u * |p * d|) :
    |q - φ * c / t| ≤ (T + 101 / 100 * (2 * E + 2)) * u * (φ * c / t) := by
  obtain ⟨x, rfl⟩ : ∃ x, f' = φ * (1 + x) := ⟨f' / φ - 1, by field_simp; ring⟩
  obtain ⟨y, rfl⟩ : ∃ y, c' = c * (1 + y) := ⟨c' / c - 1, by field_simp; ring⟩
  obtain ⟨w, rfl⟩ : ∃ w, d = (1 + w) / t := ⟨d * t - 1, by field_simp; ring⟩
  have hx : |x| ≤ T * u := by
    rw [show φ * (1 + x) - φ = x * φ by ring, abs_mul, abs_of_pos hφ] at hf
    exact le_of_mul_le_mul_right hf hφ
  have hy : |y| ≤ E * u := by
    rw [show c * (1 + y) - c = y * c by ring, abs_mul, abs_of_pos hc] at hc'
    exact le_of_mul_le_mul_right hc' hc
  have hw : |w| ≤ E * u := by
    rw [show (1 + w) / t * t - 1 = w by field_simp; ring] at hd
    exact hd
  have key : ∀ {x y s r : ℝ}, |x| ≤ s → |y| ≤ r → |(1 + x) * (1 + y) - 1| ≤ s + r + s * r := by
    intro x y s r h1 h2
    rw [show (1 + x) * (1 + y) - 1 = x + y + x * y by ring]
    refine (abs_add_three _ _ _).trans ?_
    rw [abs_mul]
    have := mul_le_mul h1 h2 (abs_nonneg _) ((abs_nonneg _).trans h1)
    linarith
  have k1 := key hx hy
  obtain ⟨x1, hx1⟩ : ∃ x1, (1 + x) * (1 + y) = 1 + x1 := ⟨_, (add_sub_cancel _ _).symm⟩
  have e1 : φ * (1 + x) * (c * (1 + y)) = φ * c * (1 + x1) := by rw [← hx1]; ring
  rw [hx1, add_sub_cancel_left] at k1
  rw [e1] at hp
  have hφc : 0 < φ * c := by positivity
  obtain ⟨p', rfl⟩ : ∃ p', p = φ * c * (1 + p') := ⟨p / (φ * c) - 1, by field_simp; ring⟩
  have hp' : |(1 + p') - (1 + x1)| ≤ u * |1 + x1| := by
    rw [← mul_sub, abs_mul (φ * c) (1 + p' - (1 + x1)), abs_mul (φ * c) (1 + x1), abs_of_pos hφc] at hp
    exact le_of_mul_le_mul_left (hp.trans (le_of_eq (by ring))) hφc
  have hTE : T * u * (E * u) ≤ 1 / 1000 * (E * u) := mul_le_mul_of_nonneg_right hT (by positivity)
  have a1 : |1 + x1| ≤ 1003 / 1000 := by
    refine (abs_add_le _ _).trans ?_
    rw [abs_one]; linarith
  have a2 : |p'| ≤ T * u + 1001 / 1000 * (E * u) + 1003 / 1000 * u := by
    have h1 : |p'| ≤ |(1 + p') - (1 + x1)| + |x1| := by
      refine le_trans (le_of_eq ?_) (abs_add_le _ _)
      congr 1; ring
    have h2 := mul_le_mul_of_nonneg_left a1 hu.le
    linarith
  have a3 := key a2 hw
  obtain ⟨x2, hx2⟩ : ∃ x2, (1 + p') * (1 + w) = 1 + x2 := ⟨_, (add_sub_cancel _ _).symm⟩
  rw [hx2, add_sub_cancel_left] at a3
  have hφt : 0 < φ * c / t := by positivity
  have e2 : φ * c * (1 + p') * ((1 + w) / t) = φ * c / t * (1 + x2) := by rw [← hx2]; ring
  rw [e2] at hq
  obtain ⟨q', rfl⟩ : ∃ q', q = φ * c / t * (1 + q') := ⟨q / (φ * c / t) - 1, by field_simp; ring⟩
  have hq' : |(1 + q') - (1 + x2)| ≤ u * |1 + x2| := by
    rw [← mul_sub, abs_mul, abs_mul, abs_of_pos hφt] at hq
    exact le_of_mul_le_mul_left (hq.trans (le_of_eq (by ring))) hφt
  have hEE : E * u * (E * u) ≤ 1 / 1000 * (E * u) := mul_le_mul_of_nonneg_right hE (by positivity)
  have huE : u * (E * u) ≤ 1 / 10 ^ 7 * (E * u) := mul_le_mul_of_nonneg_right hu7 (by positivity)
  norm_num only at huE hu7
  have hEu : 0 ≤ E * u := by positivity
  have a4 : |x2| ≤ T * u + 2004 / 1000 * (E * u) + 1003 / 1000 * u := by
    linarith
  have a5 : |1 + x2| ≤ 1005 / 1000 := by
    refine (abs_add_le _ _).trans ?_
    rw [abs_one]; linarith
  have a6 : |q'| ≤ (T + 101 / 100 * (2 * E + 2)) * u := by
    have h1 : |q'| ≤ |(1 + q') - (1 + x2)| + |x2| := by
      refine le_trans (le_of_eq ?_) (abs_add_le _ _)
      congr 1; ring
    have h2 := mul_le_mul_of_nonneg_left a5 hu.le
    linarith
  rw [show φ * c / t * (1 + q') - φ * c / t = q' * (φ * c / t) by ring, abs_mul, abs_of_pos hφt]
  exact mul_le_mul_of_nonneg_right a6 hφt.le

/-- the ratio of a convergent and the limit -/
theorem ib_ratio {c t v : ℝ} (hc : 1 / 12 ≤ c) (hc2 : c ≤ 25) (ht : 1 / 12 ≤ t) (h1 : |v| ≤ 44 * (c + v)) : (t + v) * c ≤ 300 * ((c + v) * t) := by
  rcases le_total 0 v with h | h
  · have : v * c ≤ v * (300 * t) := mul_le_mul_of_nonneg_left (by linarith) h
    have : 0 ≤ c * t := by positivity
    nlinarith
  · rw [abs_of_nonpos h] at h1
    have h2 : t * c ≤ t * (45 * (c + v)) := mul_le_mul_of_nonneg_left (by linarith) (by linarith)
    have h3 : v * c ≤ 0 := mul_nonpos_of_nonpos_of_nonneg h (by linarith)
    have : 0 ≤ t * (c + v) := by
      apply mul_nonneg <;> linarith
    nlinarith

theorem ib_quot {v t l H : ℝ} (hH : 0 ≤ H) (hl : H < l) (ht : l ≤ t) (hv : -H ≤ v) : |v| ≤ max 1 (H / (l - H)) * (t + v) := by
  have ht0 : 0 < t + v := by linarith
  rcases le_total 0 v with h | h
  · refine le_trans ?_ (mul_le_mul_of_nonneg_right (le_max_left _ _) ht0.le)
    rw [abs_of_nonneg h]; linarith
  · refine le_trans ?_ (mul_le_mul_of_nonneg_right (le_max_right _ _) ht0.le)
    rw [abs_of_nonpos h, div_mul_eq_mul_div, le_div_iff₀ (by linarith)]
    nlinarith

/-! ### one step in floating point -/

theorem rnd_rel_real {q : ℚ} (h : 1 / 2 ^ 125 ≤ |q|) : |((rnd f q : ℚ):ℝ) - q| ≤ uro f * |(q:ℝ)| := by
  have h := (Rat.cast_le (K := ℝ)).2 (rnd_err_rel (f := f) ((minNormal_le' f).trans h))
  push_cast at h
  exact h

theorem is_one : Is (i 1 : FV f) (1:ℚ) := by
  have := is_i (f := f) (n := 1) (by norm_num)
  push_cast at this; exact this
theorem rep_one' : Rep f (1:ℚ) := by
  have := rep_int (f := f) (n := 1) (by have := two_pow_prec f; rw [abs_le]; constructor <;> omega)
  push_cast at this; exact this

/-- the `c` sequence -/
theorem ib_c {a b z x : FV f} {j : ℕ} {α' cq : ℚ} {α c c' A E : ℝ} (iα : Is (incomplete_beta_coef a b z j) α') (ix : Is x cq)
    (hc : 1 / 12 ≤ c) (hc' : 1 / 12 ≤ c') (hc2 : c' ≤ 25) (e' : c' = 1 + α / c) (hα2 : |α| ≤ 2)
    (hA0 : 0 ≤ A) (hA : |α| / c ≤ A * c') (hα : |(α':ℝ) - α| ≤ 101 / 10 * uro f * |α| + uro f / 700) (hE0 : 0 ≤ E) (hE : E ≤ 1000)
    (hcq : |(cq:ℝ) - c| ≤ E * uro f * c) :
    ∃ r : ℚ, Is (incomplete_beta_c_update a b z x j) r ∧ Rep f r ∧
      |(r:ℝ) - c'| ≤ (1002 / 1000 * A * (1002 / 1000 * E + 112 / 10) + 125 / 100) * uro f * c' := by
  have hu := uro_pos_real f
  have hu7 := uro7_real f
  have hEu : E * (uro f : ℝ) ≤ 1 / 10000 := by
    refine (mul_le_mul hE hu7 hu.le (by norm_num)).trans (by norm_num)
  have hc0 : 0 < c := by linarith
  obtain ⟨hx, hp⟩ := ib_inv_rel hc0 hE0 hu hcq (by linarith)
  have hx' : 0 < cq := by exact_mod_cast hx
  have hα3 : |(α':ℝ)| ≤ 3 := by
    have := abs_add_le ((α':ℝ) - α) α
    rw [sub_add_cancel] at this
    have h2 := mul_le_mul_of_nonneg_left hα2 hu.le
    norm_num only at hu7
    linarith
  have hcl : 1 / 13 ≤ (cq:ℝ) := by
    have := (abs_le.1 hcq).1
    have h2 : E * uro f * c ≤ 1 / 10000 * c := mul_le_mul_of_nonneg_right hEu hc0.le
    linarith
  have hq1 : |(α':ℝ) / cq| ≤ 39 := by
    rw [abs_div, abs_of_pos hx, div_le_iff₀ hx]
    linarith
  have hq2 : |α' / cq| ≤ 39 := by
    have : ((|α' / cq| : ℚ):ℝ) ≤ ((39:ℚ):ℝ) := by push_cast; exact hq1
    exact_mod_cast this
  have iq := iα.div ix hx'.ne' (nov (hq2.trans (by norm_num)))
  have r40 : Rep f (40:ℚ) := by
    have := rep_int (f := f) (n := 40) (by have := two_pow_prec f; rw [abs_le]; constructor <;> omega)
    push_cast at this; exact this
  have hr : |rnd f (α' / cq)| ≤ 40 := by
    rw [abs_le] at hq2 ⊢
    exact ⟨le_rnd_of_rep r40.neg (by linarith [hq2.1]), rnd_le_of_rep r40 (by linarith [hq2.2])⟩
  have hr2 : |1 + rnd f (α' / cq)| ≤ 41 := by
    rw [abs_le] at hr ⊢
    constructor <;> linarith [hr.1, hr.2]
  have is := is_one.add iq (nov (hr2.trans (by norm_num)))
  have e1 := rnd_all_real f (α' / cq)
  have e2 := rnd_add_real (f := f) rep_one' (rep_rnd f (α' / cq))
  refine ⟨_, is, rep_rnd f _, ?_⟩
  push_cast at e1 e2
  refine ib_core (p := 1 / (cq:ℝ)) hu hu7 hc hc' e' hA0 hA hα (by positivity) (by linarith) hp (q := ((rnd f (α' / cq) : ℚ) : ℝ)) ?_ e2
  rw [mul_one_div]
  exact e1

/-- the `d` sequence -/
theorem ib_d {a b z y : FV f} {j : ℕ} {α' dq : ℚ} {α t t' A E : ℝ} (iα : Is (incomplete_beta_coef a b z j) α') (iy : Is y dq)
    (hc : 1 / 12 ≤ t) (hc' : 1 / 12 ≤ t') (hc2 : t' ≤ 25) (e' : t' = 1 + α / t) (hα2 : |α| ≤ 2)
    (hA0 : 0 ≤ A) (hA : |α| / t ≤ A * t') (hα : |(α':ℝ) - α| ≤ 101 / 10 * uro f * |α| + uro f / 700) (hE0 : 0 ≤ E) (hE : E ≤ 1000)
    (hdq : |(dq:ℝ) * t - 1| ≤ E * uro f) (hE' : 1002 / 1000 * A * (E + 112 / 10) + 125 / 100 ≤ 1000) :
    ∃ r : ℚ, Is (incomplete_beta_d_update a b z y j) r ∧
      |(r:ℝ) * t' - 1| ≤ (1002 / 1000 * (1002 / 1000 * A * (E + 112 / 10) + 125 / 100) + 101 / 100) * uro f := by
  have hu := uro_pos_real f
  have hu7 := uro7_real f
  have hEu : E * (uro f : ℝ) ≤ 1 / 10000 := by
    refine (mul_le_mul hE hu7 hu.le (by norm_num)).trans (by norm_num)
  have ht0 : 0 < t := by linarith
  have ht0' : 0 < t' := by linarith
  have hα3 : |(α':ℝ)| ≤ 3 := by
    have := abs_add_le ((α':ℝ) - α) α
    rw [sub_add_cancel] at this
    have h2 := mul_le_mul_of_nonneg_left hα2 hu.le
    norm_num only at hu7
    linarith
  have hdl : |(dq:ℝ)| ≤ 13 := by
    have := abs_add_le ((dq:ℝ) * t - 1) 1
    rw [sub_add_cancel, abs_mul, abs_of_pos ht0, abs_one] at this
    by_contra hcon
    push Not at hcon
    nlinarith
  have hq1 : |(α':ℝ) * dq| ≤ 3 * 13 := by
    rw [abs_mul]
    exact mul_le_mul hα3 hdl (abs_nonneg _) (by norm_num)
  have hq2 : |α' * dq| ≤ 39 := by
    have : ((|α' * dq| : ℚ):ℝ) ≤ ((39:ℚ):ℝ) := by push_cast; linarith
    exact_mod_cast this
  have iq := iα.mul iy (nov (hq2.trans (by norm_num)))
  have r40 : Rep f (40:ℚ) := by
    have := rep_int (f := f) (n := 40) (by have := two_pow_prec f; rw [abs_le]; constructor <;> omega)
    push_cast at this; exact this
  have hr : |rnd f (α' * dq)| ≤ 40 := by
    rw [abs_le] at hq2 ⊢
    exact ⟨le_rnd_of_rep r40.neg (by linarith [hq2.1]), rnd_le_of_rep r40 (by linarith [hq2.2])⟩
  have hr2 : |1 + rnd f (α' * dq)| ≤ 41 := by
    rw [abs_le] at hr ⊢
    constructor <;> linarith [hr.1, hr.2]
  have is := is_one.add iq (nov (hr2.trans (by norm_num)))
  have e1 := rnd_all_real f (α' * dq)
  have e2 := rnd_add_real (f := f) rep_one' (rep_rnd f (α' * dq))
  push_cast at e1 e2
  have hs := ib_core (p := (dq:ℝ)) hu hu7 hc hc' e' hA0 hA hα hE0 (by linarith) hdq (q := ((rnd f (α' * dq) : ℚ) : ℝ)) e1 e2
  generalize rnd f (1 + rnd f (α' * dq)) = s at *
  set E1 := 1002 / 1000 * A * (E + 112 / 10) + 125 / 100 with hE1
  have hE10 : 0 ≤ E1 := by positivity
  have hE1u : E1 * (uro f : ℝ) ≤ 1 / 10000 := by
    refine (mul_le_mul hE' hu7 hu.le (by norm_num)).trans (by norm_num)
  obtain ⟨hs0, hs1⟩ := ib_inv_rel ht0' hE10 hu hs (by linarith)
  have hs0' : 0 < s := by exact_mod_cast hs0
  have hsb := abs_le.1 hs
  have h2 : E1 * uro f * t' ≤ 1 / 10000 * t' := mul_le_mul_of_nonneg_right hE1u ht0'.le
  have hsl : 1 / 13 ≤ (s:ℝ) := by linarith [hsb.1]
  have hsu : (s:ℝ) ≤ 26 := by linarith [hsb.2]
  have hsl' : 1 / 13 ≤ s := by
    have : ((1 / 13 : ℚ):ℝ) ≤ (s:ℝ) := by push_cast; exact hsl
    exact_mod_cast this
  have hsu' : s ≤ 26 := by
    have : (s:ℝ) ≤ ((26:ℚ):ℝ) := by push_cast; exact hsu
    exact_mod_cast this
  have hi1 : 1 / s ≤ 13 := by rw [div_le_iff₀ hs0']; linarith
  have hi2 : 1 / 26 ≤ 1 / s := one_div_le_one_div_of_le hs0' hsu'
  have hip : |1 / s| = 1 / s := abs_of_pos (by positivity)
  refine ⟨_, is_one.div is hs0'.ne' (nov (by rw [hip]; exact hi1.trans (by norm_num))), ?_⟩
  have e3 := rnd_rel_real (f := f) (q := 1 / s) (by rw [hip]; exact le_trans (by norm_num) hi2)
  generalize rnd f (1 / s) = r at *
  push_cast at e3
  rw [abs_of_pos (show (0:ℝ) < 1 / s by positivity)] at e3
  have e4 : |(r:ℝ) * t' - 1 / s * t'| ≤ uro f * (1 / s * t') := by
    rw [← sub_mul, abs_mul, abs_of_pos ht0']
    have := mul_le_mul_of_nonneg_right e3 ht0'.le
    linarith
  have e5 : 1 / (s:ℝ) * t' ≤ 1001 / 1000 := by
    have := (abs_le.1 hs1).2
    linarith
  have e6 := mul_le_mul_of_nonneg_left e5 hu.le
  have e7 := abs_sub_le ((r:ℝ) * t') (1 / s * t') 1
  linarith

/-- the stopping test -/
theorem ib_stop {x y : FV f} {p q : ℚ} (ix : Is x p) (iy : Is y q) (h : |p * q| ≤ 2 ^ 20)
    (hlt : FV.cast f.ldbl (fabs (x * y - i 1)) < (d INCML_BETA_TOL : FV f.ldbl)) :
    |((rnd f (rnd f (p * q) - 1) : ℚ):ℝ)| ≤ 1001 / 1000 / 10 ^ 15 := by
  have r20 : Rep f (2 ^ 20 : ℚ) := by
    have := rep_int (f := f) (n := 2 ^ 20) (by have := two_pow_prec f; rw [abs_le]; constructor <;> norm_num <;> omega)
    push_cast at this; exact this
  have r21 : Rep f (2 ^ 21 : ℚ) := by
    have := rep_int (f := f) (n := 2 ^ 21) (by have := two_pow_prec f; rw [abs_le]; constructor <;> norm_num <;> omega)
    push_cast at this; exact this
  have h1 : |rnd f (p * q)| ≤ 2 ^ 20 := by
    rw [abs_le] at h ⊢
    exact ⟨le_rnd_of_rep r20.neg h.1, rnd_le_of_rep r20 h.2⟩
  have h2 : |rnd f (p * q) - 1| ≤ 2 ^ 21 := by
    rw [abs_le] at h1 ⊢
    norm_num at h1 ⊢
    constructor <;> linarith [h1.1, h1.2]
  have i1 := ((ix.mul iy (nov (h.trans (by norm_num)))).sub is_one (nov (h2.trans (by norm_num)))).fabs
  set v := rnd f (rnd f (p * q) - 1) with hv
  have hrep : Rep f |v| := by
    rcases abs_choice v with h | h <;> rw [h]
    · exact rep_rnd f _
    · exact (rep_rnd f _).neg
  have h3 : |v| ≤ 2 ^ 21 := by
    rw [hv, abs_le]
    rw [abs_le] at h2
    exact ⟨le_rnd_of_rep r21.neg h2.1, rnd_le_of_rep r21 h2.2⟩
  have hrl := rep_ldbl hrep
  have i2 := i1.cast (g := f.ldbl) (nov (by rw [abs_abs]; exact h3.trans (by norm_num)))
  rw [hrl] at i2
  have ht : rnd f.ldbl.dbl (1e-15) ≤ 10001 / 10000 / 10 ^ 15 := by
    have := rnd_err_rel (f := f.ldbl.dbl) (q := 1e-15) ((minNormal_le' _).trans (by rw [abs_of_pos (by norm_num)]; norm_num))
    rw [abs_of_pos (show (0:ℚ) < 1e-15 by norm_num)] at this
    have h4 := (abs_le.1 this).2
    have h5 := uro_le_rat f.ldbl.dbl
    norm_num at h4 h5 ⊢
    linarith
  have ht0 : 0 ≤ rnd f.ldbl.dbl (1e-15) := le_rnd_of_rep (rnd_zero _) (by norm_num)
  have i3 : Is (d INCML_BETA_TOL : FV f.ldbl) (rnd f.ldbl (rnd f.ldbl.dbl (1e-15))) := by
    unfold d
    exact is_mk (nov (by
      rw [show INCML_BETA_TOL = 1e-15 from rfl, abs_of_nonneg ht0]; exact ht.trans (by norm_num)))
  have ht1 : rnd f.ldbl (rnd f.ldbl.dbl (1e-15)) ≤ 1001 / 1000 / 10 ^ 15 := by
    have h4 := rnd_mono (f := f.ldbl) ht
    have := rnd_err_rel (f := f.ldbl) (q := 10001 / 10000 / 10 ^ 15) ((minNormal_le' _).trans (by rw [abs_of_pos (by norm_num)]; norm_num))
    rw [abs_of_pos (show (0:ℚ) < 10001 / 10000 / 10 ^ 15 by norm_num)] at this
    have h6 := (abs_le.1 this).2
    have h5 := uro_le_rat f.ldbl
    norm_num at h4 h5 h6 ⊢
    linarith
  obtain ⟨w1, e1⟩ := i2
  obtain ⟨w2, e2⟩ := i3
  rw [e1, e2, fin_lt] at hlt
  have := (Rat.cast_le (K := ℝ)).2 (hlt.le.trans ht1)
  push_cast at this
  exact this

/-! ### the state of the loop -/

theorem ibN_nonneg (c j : ℕ) : 0 ≤ ibP c j := by
  unfold ibP
  split_ifs with h
  · exact le_rfl
  · have : (j:ℚ) ≤ 19 := by
      have : j ≤ 19 := by omega
      exact_mod_cast this
    have h0 : 0 ≤ ibZ c := by unfold ibZ; positivity
    have h1 : (0:ℚ) ≤ 19 - j := by linarith
    positivity

theorem ibH_nonneg (c j : ℕ) : 0 ≤ ibH c j := by
  have h0 : 0 ≤ ibZ c := by unfold ibZ; positivity
  have h1 : 0 ≤ ibRho c (j / 2) := by unfold ibRho; split_ifs <;> positivity
  unfold ibH
  split_ifs <;> positivity

theorem ibCheck_iff {c j L' E' T' : ℕ} (h : ibCheck c j L' E' T' = true) :
    5462 ≤ L' ∧ E' ≤ 64000 ∧ ibN c j ≤ 2 ∧ ibP c j ≤ 2 ∧ ibH c (j + 1) ≤ 44 * (L' / 65536 - ibH c (j + 1)) ∧
      (T':ℚ) / 64 + 11 / 10 * (ibK c j L' * (2 * E' / 64 + 2)) ≤ 9400 := by
  simpa only [ibCheck, decide_eq_true_eq] using h

/-- the real part of a step: lower bounds, the identity with the limit, the difference of the sequences -/
theorem ib_real {a b z F c t φ : ℝ} {k j L E' T' R : ℕ} (h : IbCell a b z k) (hz1 : z < 1) (hj : 1 ≤ j) (hL : 5462 ≤ L)
    (hc : (L:ℝ) / 65536 ≤ c) (ht : (L:ℝ) / 65536 ≤ t) (hr : |c - t| ≤ R / 2 ^ 170 * t) (hφ : 0 < φ)
    (hid : F * ((t + (W a b z j - 1)) * c) = φ * ((c + (W a b z j - 1)) * t))
    (h1 : j = 1 → ((k:ℝ) + 4) / (k + 8) ≤ 1 + al a b z 1 / c ∧ ((k:ℝ) + 4) / (k + 8) ≤ 1 + al a b z 1 / t)
    (hF1 : 1 ≤ F) (hF2 : F ≤ 2 ^ 40)
    (chk : ibCheck k j (ibL k j L) E' T' = true) {c' t' φ' : ℝ} (ec : c' = 1 + al a b z j / c) (et : t' = 1 + al a b z j / t) (eφ : φ' = φ * c' / t') :
    (ibL k j L : ℝ) / 65536 ≤ c' ∧ (ibL k j L : ℝ) / 65536 ≤ t' ∧ c' ≤ 25 ∧ t' ≤ 25 ∧ |al a b z j| ≤ 2 ∧
    |c' - t'| ≤ (ibR k j L (ibL k j L) R : ℝ) / 2 ^ 170 * t' ∧
    F * ((t' + (W a b z (j + 1) - 1)) * c') = φ' * ((c' + (W a b z (j + 1) - 1)) * t') ∧
    1 / 2 ^ 50 ≤ φ' ∧ φ' ≤ 2 ^ 50 ∧ |F - φ'| ≤ φ' * ((ibK k j (ibL k j L) : ℝ) * (|t' - c'| / c')) ∧
    |al a b z j| / c ≤ (ibA k j L (ibL k j L) : ℝ) * c' ∧ |al a b z j| / t ≤ (ibA k j L (ibL k j L) : ℝ) * t' := by
  obtain ⟨q1, q2, q3, q4, q5, q6⟩ := ibCheck_iff chk
  have n1 := h.neg_al hj
  have p1 := h.pos_al j
  have hP := ibN_nonneg k j
  have hH := ibH_nonneg k (j + 1)
  have ho := h.om (j := j + 1) (by omega)
  have ha : 0 < a := by linarith [h.ca]
  have hW := W_pos (b := b) ha h.z0 hz1
  have hWr := W_rec (b := b) ha h.z0 hz1
  have hl : (5462:ℝ) ≤ L := by exact_mod_cast hL
  set l : ℝ := (L:ℝ) / 65536 with hl_def
  have l12 : 1 / 12 ≤ l := by rw [hl_def]; linarith
  have hl0 : 0 < l := by linarith
  have hc0 : 0 < c := by linarith
  have ht0 : 0 < t := by linarith
  have q3' : (ibN k j : ℝ) ≤ 2 := by exact_mod_cast q3
  have q4' : (ibP k j : ℝ) ≤ 2 := by exact_mod_cast q4
  have hP' : (0:ℝ) ≤ ibP k j := by exact_mod_cast hP
  have hH' : (0:ℝ) ≤ ibH k (j + 1) := by exact_mod_cast hH
  set α := al a b z j with hα
  have hαb : |α| ≤ max (ibN k j : ℝ) (ibP k j) := by
    rw [abs_le]
    exact ⟨by linarith [le_max_left (ibN k j : ℝ) (ibP k j)], p1.trans (le_max_right _ _)⟩
  have hα2 : |α| ≤ 2 := hαb.trans (max_le q3' q4')
  -- lower bounds
  have lower : ∀ s : ℝ, l ≤ s → (j = 1 → ((k:ℝ) + 4) / (k + 8) ≤ 1 + al a b z 1 / s) → (ibL k j L : ℝ) / 65536 ≤ 1 + α / s := by
    intro s hs hs1
    have hs0 : 0 < s := by linarith
    have hv : ((ibL k j L : ℕ) : ℚ) ≤ (if j = 1 then max (1 - ibN k j / (L / 65536)) (((k:ℚ) + 4) / (k + 8)) else 1 - ibN k j / (L / 65536)) * 65536 := by
      exact (Nat.le_floor_iff' (by omega)).1 (le_refl (ibL k j L))
    have gen : (1:ℝ) - ibN k j / (L / 65536) ≤ 1 + α / s := by
      have h2 : -(α / s) ≤ ibN k j / l := by
        rw [← neg_div]
        rcases le_total 0 (-α) with hn | hn
        · exact div_le_div₀ (hn.trans n1) n1 hl0 hs
        · refine (div_nonpos_of_nonpos_of_nonneg hn hs0.le).trans ?_
          refine div_nonneg ?_ hl0.le
          have : 0 ≤ ibN k j := by
            have h0 : 0 ≤ ibZ k := by unfold ibZ; positivity
            have h1 : 0 ≤ ibRho k (j / 2) := by unfold ibRho; split_ifs <;> positivity
            unfold ibN
            split_ifs <;> positivity
          exact_mod_cast this
      rw [hl_def] at h2
      linarith
    have hv' := (Rat.cast_le (K := ℝ)).2 hv
    split_ifs at hv' with hj1
    · push_cast at hv'
      rw [div_le_iff₀ (by norm_num)]
      refine hv'.trans (mul_le_mul_of_nonneg_right (max_le gen ?_) (by norm_num))
      have := hs1 hj1
      rw [hα, hj1]; exact this
    · push_cast at hv'
      rw [div_le_iff₀ (by norm_num)]
      exact hv'.trans (mul_le_mul_of_nonneg_right gen (by norm_num))
  have lc := lower c hc (fun e => (h1 e).1)
  have lt := lower t ht (fun e => (h1 e).2)
  rw [← ec] at lc
  rw [← et] at lt
  have q1' : (5462:ℝ) ≤ (ibL k j L : ℕ) := by exact_mod_cast q1
  set l' : ℝ := (ibL k j L : ℝ) / 65536 with hl'
  have l12' : 1 / 12 ≤ l' := by rw [hl']; linarith
  have hl0' : 0 < l' := by linarith
  have hc0' : 0 < c' := by linarith
  have ht0' : 0 < t' := by linarith
  have upper : ∀ s : ℝ, l ≤ s → 1 + α / s ≤ 25 := by
    intro s hs
    have hs0 : 0 < s := by linarith
    have : α / s ≤ 24 := by
      rw [div_le_iff₀ hs0]
      linarith [(abs_le.1 hα2).2]
    linarith
  have uc := upper c hc
  have ut := upper t ht
  rw [← ec] at uc
  rw [← et] at ut
  -- the tail
  set v := W a b z (j + 1) - 1 with hv
  have hvo : -(ibH k (j + 1) : ℝ) ≤ v := by rw [hv, hWr (j + 1)]; linarith
  have q5' : (ibH k (j + 1) : ℝ) ≤ 44 * (l' - ibH k (j + 1)) := by
    have := (Rat.cast_le (K := ℝ)).2 q5
    push_cast at this
    exact this
  have hHl : (ibH k (j + 1) : ℝ) < l' := by
    rcases hH'.eq_or_lt with h0 | h0
    · rw [← h0]; exact hl0'
    · linarith
  have kap : (ibK k j (ibL k j L) : ℝ) = max 1 ((ibH k (j + 1) : ℝ) / (l' - ibH k (j + 1))) := by
    unfold ibK; push_cast; rfl
  have k44 : max 1 ((ibH k (j + 1) : ℝ) / (l' - ibH k (j + 1))) ≤ 44 := by
    refine max_le (by norm_num) ?_
    rw [div_le_iff₀ (by linarith)]
    exact q5'
  have vc := ib_quot hH' hHl lc hvo
  have vt := ib_quot hH' hHl lt hvo
  have hcv : 0 < c' + v := by linarith
  have htv : 0 < t' + v := by linarith
  have vc' := vc.trans (mul_le_mul_of_nonneg_right k44 hcv.le)
  have vt' := vt.trans (mul_le_mul_of_nonneg_right k44 htv.le)
  rw [← kap] at vt
  -- the identity
  have hφ' : 0 < φ' := by rw [eφ]; positivity
  have hWj : W a b z j - 1 = α / (1 + v) := by
    rw [hWr j, hv]; ring
  have h1v : 0 < 1 + v := by rw [hv]; linarith [hW (j + 1)]
  have tt : t * t' = t + α := by rw [et]; field_simp
  have cc : c * c' = c + α := by rw [ec]; field_simp
  have id' : F * (t' + v) = φ * (c' + v) := by
    rw [hWj] at hid
    have e1 : t + α / (1 + v) = t * (t' + v) / (1 + v) := by
      rw [eq_div_iff h1v.ne']
      field_simp
      linarith
    have e2 : c + α / (1 + v) = c * (c' + v) / (1 + v) := by
      rw [eq_div_iff h1v.ne']
      field_simp
      linarith
    rw [e1, e2] at hid
    have e3 : F * (t' + v) * (t * c / (1 + v)) = φ * (c' + v) * (t * c / (1 + v)) := by
      calc _ = F * (t * (t' + v) / (1 + v) * c) := by ring
        _ = φ * (c * (c' + v) / (1 + v) * t) := hid
        _ = _ := by ring
    exact mul_right_cancel₀ (by positivity) e3
  have id'' : F * ((t' + v) * c') = φ' * ((c' + v) * t') := by
    rw [eφ, ← mul_assoc, id']
    field_simp
  have r1 := ib_ratio (c := c') (t := t') (v := v) (by linarith) uc (by linarith) vc'
  have r2 := ib_ratio (c := t') (t := c') (v := v) (by linarith) ut (by linarith) vt'
  have hX : 0 < (c' + v) * t' := by positivity
  have hY : 0 < (t' + v) * c' := by positivity
  have f1 : φ' ≤ 300 * F := by
    have : φ' * ((c' + v) * t') ≤ 300 * F * ((c' + v) * t') := by
      rw [← id'']
      have := mul_le_mul_of_nonneg_left r1 (show 0 ≤ F by linarith)
      linarith
    exact le_of_mul_le_mul_right this hX
  have f2 : F ≤ 300 * φ' := by
    have : F * ((t' + v) * c') ≤ 300 * φ' * ((t' + v) * c') := by
      rw [id'']
      have := mul_le_mul_of_nonneg_left r2 hφ'.le
      linarith
    exact le_of_mul_le_mul_right this hY
  refine ⟨lc, lt, uc, ut, hα2, ?_, id'', ?_, ?_, ?_, ?_, ?_⟩
  · -- difference
    have e1 : c' - t' = -(α * (c - t) / (c * t)) := by
      rw [ec, et]; field_simp; ring
    have hR : ((ibR k j L (ibL k j L) R : ℕ) : ℝ) ≥ max (ibN k j : ℝ) (ibP k j) / (l * l') * R := by
      have := (Rat.cast_le (K := ℝ)).2 (Nat.le_ceil (max (ibN k j) (ibP k j) / ((L:ℚ) / 65536 * ((ibL k j L : ℕ) / 65536)) * R))
      push_cast at this
      exact this
    rw [e1, abs_neg, abs_div, abs_mul, abs_of_pos (mul_pos hc0 ht0), div_le_iff₀ (mul_pos hc0 ht0)]
    have hM : 0 ≤ max (ibN k j : ℝ) (ibP k j) := hP'.trans (le_max_right _ _)
    have s1 : |α| * |c - t| ≤ max (ibN k j : ℝ) (ibP k j) * (R / 2 ^ 170 * t) := mul_le_mul hαb hr (abs_nonneg _) hM
    refine s1.trans ?_
    have s2 : l * l' ≤ c * t' := mul_le_mul hc lt hl0'.le hc0.le
    have s3 : max (ibN k j : ℝ) (ibP k j) * R ≤ (ibR k j L (ibL k j L) R : ℝ) * (c * t') := by
      have s4 := mul_le_mul_of_nonneg_right hR (show 0 ≤ l * l' by positivity)
      rw [show max (ibN k j : ℝ) (ibP k j) / (l * l') * R * (l * l') = max (ibN k j : ℝ) (ibP k j) * R by field_simp] at s4
      exact s4.trans (mul_le_mul_of_nonneg_left s2 (Nat.cast_nonneg _))
    have s5 := mul_le_mul_of_nonneg_right s3 (show 0 ≤ t / 2 ^ 170 by positivity)
    calc _ = max (ibN k j : ℝ) (ibP k j) * R * (t / 2 ^ 170) := by ring
      _ ≤ _ := s5
      _ = _ := by ring
  · norm_num at hF2 ⊢; linarith
  · norm_num at hF2 ⊢; linarith
  · have e1 : (F - φ') * ((t' + v) * c') = φ' * (v * (t' - c')) := by
      rw [sub_mul, id'']; ring
    have e2 : |F - φ'| * ((t' + v) * c') = φ' * (|v| * |t' - c'|) := by
      have := congrArg abs e1
      rwa [abs_mul, abs_of_pos hY, abs_mul φ', abs_of_pos hφ', abs_mul v] at this
    have e3 : |F - φ'| * ((t' + v) * c') ≤ φ' * ((ibK k j (ibL k j L) : ℝ) * (|t' - c'| / c')) * ((t' + v) * c') := by
      rw [e2]
      have := mul_le_mul_of_nonneg_left (mul_le_mul_of_nonneg_right vt (abs_nonneg (t' - c'))) hφ'.le
      refine this.trans (le_of_eq ?_)
      field_simp
    exact le_of_mul_le_mul_right e3 hY
  · have := ib_amp hl0 hl0' hc lc hP' p1 ec
    unfold ibA; push_cast; exact this
  · have := ib_amp hl0 hl0' ht lt hP' p1 et
    unfold ibA; push_cast; exact this

structure IbSt (a b z F u : ℝ) (j L E T R : ℕ) (c t φ : ℝ) (cq dq fq : ℚ) : Prop where
  L5 : 5462 ≤ L
  E6 : E ≤ 64000
  T9 : T ≤ 601600
  lc : (L:ℝ) / 65536 ≤ c
  lt : (L:ℝ) / 65536 ≤ t
  ec : |(cq:ℝ) - c| ≤ E / 64 * u * c
  ed : |(dq:ℝ) * t - 1| ≤ E / 64 * u
  ef : |(fq:ℝ) - φ| ≤ T / 64 * u * φ
  r : |c - t| ≤ R / 2 ^ 170 * t
  p0 : 1 / 2 ^ 50 ≤ φ
  p1 : φ ≤ 2 ^ 50
  idn : F * ((t + (W a b z j - 1)) * c) = φ * ((c + (W a b z j - 1)) * t)

theorem ibT_ge (E' T : ℕ) : (T:ℝ) / 64 + 101 / 100 * (2 * (E' / 64) + 2) ≤ (ibT E' T : ℝ) / 64 := by
  have h : E' / 32 * 32 + 32 ≥ E' := by omega
  have h' : ((E' / 32 : ℕ):ℝ) * 32 + 32 ≥ E' := by exact_mod_cast h
  unfold ibT
  push_cast
  have : ((E' / 32 : ℕ):ℝ) = ((E' / 32 : ℕ):ℝ) := rfl
  generalize ((E' / 32 : ℕ):ℝ) = y at *
  have h0 : (0:ℝ) ≤ E' := Nat.cast_nonneg _
  linarith

theorem ibE_ge (k j L L' E : ℕ) : 101 / 100 * (ibA k j L L' : ℝ) * (E / 64 + 113 / 10) + 24 / 10 ≤ (ibE k j L L' E : ℝ) / 64 := by
  have := (Rat.cast_le (K := ℝ)).2 (Nat.le_ceil ((101 / 100 * ibA k j L L' * ((E:ℚ) / 64 + 113 / 10) + 24 / 10) * 64))
  push_cast at this
  rw [le_div_iff₀ (by norm_num)]
  unfold ibE
  exact this

theorem ibA_nonneg (k j L L' : ℕ) : (0:ℝ) ≤ ibA k j L L' := by
  have hP := ibN_nonneg k j
  have : 0 ≤ ibA k j L L' := by
    unfold ibA
    exact le_max_of_le_right (by positivity)
  exact_mod_cast this

theorem rat_abs_le {q r : ℚ} (h : |(q:ℝ)| ≤ (r:ℝ)) : |q| ≤ r := by
  have : ((|q| : ℚ):ℝ) ≤ (r:ℝ) := by push_cast; exact h
  exact_mod_cast this

theorem rat_le_abs {q r : ℚ} (h : (r:ℝ) ≤ |(q:ℝ)|) : r ≤ |q| := by
  have : (r:ℝ) ≤ ((|q| : ℚ):ℝ) := by push_cast; exact h
  exact_mod_cast this

/-- the product -/
theorem ib_f {x y w : FV f} {cq dq fq : ℚ} {φ c t T E : ℝ} (ix : Is x cq) (iy : Is y dq) (iw : Is w fq)
    (hφ : 1 / 2 ^ 50 ≤ φ) (hφ2 : φ ≤ 2 ^ 50) (hc : 1 / 12 ≤ c) (hc2 : c ≤ 25) (ht : 1 / 12 ≤ t) (ht2 : t ≤ 25)
    (hT0 : 0 ≤ T) (hE0 : 0 ≤ E) (hT : T ≤ 9400) (hE : E ≤ 1000)
    (hf : |(fq:ℝ) - φ| ≤ T * uro f * φ) (hcq : |(cq:ℝ) - c| ≤ E * uro f * c) (hd : |(dq:ℝ) * t - 1| ≤ E * uro f) :
    ∃ r : ℚ, Is (w * x * y) r ∧ |(r:ℝ) - φ * c / t| ≤ (T + 101 / 100 * (2 * E + 2)) * uro f * (φ * c / t) := by
  have hu := uro_pos_real f
  have hu7 := uro7_real f
  have hTu : T * (uro f : ℝ) ≤ 1 / 1000 := (mul_le_mul hT hu7 hu.le (by norm_num)).trans (by norm_num)
  have hEu : E * (uro f : ℝ) ≤ 1 / 1000 := (mul_le_mul hE hu7 hu.le (by norm_num)).trans (by norm_num)
  have hφ0 : 0 < φ := lt_of_lt_of_le (by norm_num) hφ
  have hc0 : 0 < c := by linarith
  have ht0 : 0 < t := by linarith
  have f1 := abs_le.1 (hf.trans (mul_le_mul_of_nonneg_right hTu hφ0.le))
  have c1 := abs_le.1 (hcq.trans (mul_le_mul_of_nonneg_right hEu hc0.le))
  have d1 := abs_le.1 (hd.trans hEu)
  have fl : 1 / 2 ^ 51 ≤ (fq:ℝ) := by norm_num at hφ ⊢; linarith
  have fu : (fq:ℝ) ≤ 2 ^ 51 := by norm_num at hφ2 ⊢; linarith
  have cl : 1 / 13 ≤ (cq:ℝ) := by linarith
  have cu : (cq:ℝ) ≤ 26 := by linarith
  have dl : 1 / 26 ≤ (dq:ℝ) := by
    by_contra hcon; push Not at hcon
    rcases le_or_gt (dq:ℝ) 0 with h | h
    · nlinarith
    · nlinarith
  have du : (dq:ℝ) ≤ 13 := by
    by_contra hcon; push Not at hcon
    nlinarith
  have pl : 1 / 2 ^ 51 * (1 / 13) ≤ (fq:ℝ) * cq := mul_le_mul fl cl (by norm_num) (by linarith)
  have pu : (fq:ℝ) * cq ≤ 2 ^ 51 * 26 := mul_le_mul fu cu (by linarith) (by norm_num)
  have hp0 : (0:ℝ) < fq * cq := lt_of_lt_of_le (by norm_num) pl
  have e1 := rnd_rel_real (f := f) (q := fq * cq) (rat_le_abs (by
    push_cast; rw [abs_of_pos hp0]; exact le_trans (by norm_num) pl))
  have o1 : overflows f (rnd f (fq * cq)) = false := nov (rat_abs_le (by
    push_cast; rw [abs_of_pos hp0]; exact pu.trans (by norm_num)))
  have i1 := iw.mul ix o1
  generalize rnd f (fq * cq) = p at *
  push_cast at e1
  rw [abs_of_pos hp0] at e1
  have hup : (uro f : ℝ) * (fq * cq) ≤ 1 / 10 * (fq * cq) := mul_le_mul_of_nonneg_right (hu7.trans (by norm_num)) hp0.le
  have p1 := abs_le.1 (e1.trans hup)
  have ppl : 1 / 2 ^ 56 ≤ (p:ℝ) := by norm_num at pl ⊢; linarith
  have ppu : (p:ℝ) ≤ 2 ^ 57 := by norm_num at pu ⊢; linarith
  have ql : 1 / 2 ^ 56 * (1 / 26) ≤ (p:ℝ) * dq := mul_le_mul ppl dl (by norm_num) (by linarith)
  have qu : (p:ℝ) * dq ≤ 2 ^ 57 * 13 := mul_le_mul ppu du (by linarith) (by norm_num)
  have hq0 : (0:ℝ) < p * dq := lt_of_lt_of_le (by norm_num) ql
  have e2 := rnd_rel_real (f := f) (q := p * dq) (rat_le_abs (by
    push_cast; rw [abs_of_pos hq0]; exact le_trans (by norm_num) ql))
  have o2 : overflows f (rnd f (p * dq)) = false := nov (rat_abs_le (by
    push_cast; rw [abs_of_pos hq0]; exact qu.trans (by norm_num)))
  have i2 := i1.mul iy o2
  refine ⟨_, i2, ?_⟩
  generalize rnd f (p * dq) = q at *
  push_cast at e2
  refine ib_prod hu hφ0 hc0 ht0 hu7 hT0 hE0 hTu hEu hf hcq hd (p := (p:ℝ)) ?_ e2
  rw [abs_of_pos hp0]; exact e1

/-- a step of the loop -/
theorem ib_step {a b z : ℚ} {wa wb wz : Bool} {F c t φ : ℝ} {k j L E T R : ℕ} {cq dq fq : ℚ} {x y w : FV f}
    (hb : Valid (fin b wb : FV f)) (h : IbCell a b z k) (hz1 : (z:ℝ) < 1) (hz0 : 1 / 2 ^ 100 ≤ z) (hj : 1 ≤ j) (hj2 : j ≤ 205)
    (hF1 : 1 ≤ F) (hF2 : F ≤ 2 ^ 40) (ix : Is x cq) (iy : Is y dq) (iw : Is w fq) (st : IbSt a b z F (uro f) j L E T R c t φ cq dq fq)
    (h1 : j = 1 → ((k:ℝ) + 4) / (k + 8) ≤ 1 + al a b z 1 / c ∧ ((k:ℝ) + 4) / (k + 8) ≤ 1 + al a b z 1 / t) {L' E' T' R' : ℕ}
    (eL : L' = ibL k j L) (eE : E' = ibE k j L L' E) (eT : T' = ibT E' T) (eR : R' = ibR k j L L' R)
    (chk : ibCheck k j L' E' T' = true) :
    ∃ cq' dq' fq' : ℚ, ∃ c' t' φ' : ℝ, Is (incomplete_beta_c_update (fin a wa : FV f) (fin b wb) (fin z wz) x j) cq' ∧
      Is (incomplete_beta_d_update (fin a wa : FV f) (fin b wb) (fin z wz) y j) dq' ∧
      Is (w * incomplete_beta_c_update (fin a wa : FV f) (fin b wb) (fin z wz) x j * incomplete_beta_d_update (fin a wa : FV f) (fin b wb) (fin z wz) y j) fq' ∧
      IbSt a b z F (uro f) (j + 1) L' E' T' R' c' t' φ' cq' dq' fq' ∧ c' ≤ 25 ∧ t' ≤ 25 ∧
      |F - φ'| ≤ φ' * ((ibK k j L' : ℝ) * (|t' - c'| / c')) := by
  obtain ⟨q1, q2, q3, q4, q5, q6⟩ := ibCheck_iff chk
  have hφ0 : 0 < φ := lt_of_lt_of_le (by norm_num) st.p0
  subst eL
  obtain ⟨lc, lt, uc, ut, hα2, hr, hid, hp0, hp1, hK, hAc, hAt⟩ := ib_real h hz1 hj st.L5 st.lc st.lt st.r hφ0 st.idn h1 hF1 hF2 chk rfl rfl rfl
  have ha1 : 1 / 2 ≤ a := by
    have := h.ca
    have h2 : ((1 / 2 : ℚ):ℝ) ≤ (a:ℝ) := by push_cast; exact this
    exact_mod_cast h2
  have ha2 : a ≤ 16 := by
    have h3 := h.a1
    have h4 : (k:ℝ) ≤ 40 := by exact_mod_cast h.c40.le
    have h5 := h.wpos.2
    have h2 : (a:ℝ) ≤ ((16:ℚ):ℝ) := by push_cast; linarith
    exact_mod_cast h2
  have hb1 : 1 / 2 ≤ b := by
    have := h.b0
    have h2 : ((1 / 2 : ℚ):ℝ) ≤ (b:ℝ) := by push_cast; exact this
    exact_mod_cast h2
  have hb2 : b ≤ 16 := by
    have := h.b1
    have h2 : (b:ℝ) ≤ ((16:ℚ):ℝ) := by push_cast; linarith
    exact_mod_cast h2
  obtain ⟨α', iα, hα⟩ := ib_coef (f := f) (wa := wa) (wz := wz) hb ha1 ha2 hb1 hb2 hz0 (by exact_mod_cast hz1.le) (j := j) (by omega)
  have hL5 : (5462:ℝ) ≤ L := by exact_mod_cast st.L5
  have q1' : (5462:ℝ) ≤ (ibL k j L : ℕ) := by exact_mod_cast q1
  have l1 : 1 / 12 ≤ c := by linarith [st.lc]
  have l2 : 1 / 12 ≤ t := by linarith [st.lt]
  have l3 : (1:ℝ) / 12 ≤ 1 + al a b z j / c := by linarith
  have l4 : (1:ℝ) / 12 ≤ 1 + al a b z j / t := by linarith
  have hE0 : (0:ℝ) ≤ (E:ℝ) / 64 := by positivity
  have hE1 : (E:ℝ) / 64 ≤ 1000 := by
    have : (E:ℝ) ≤ 64000 := by exact_mod_cast st.E6
    linarith
  have hE0' : (0:ℝ) ≤ (E':ℝ) / 64 := by positivity
  have hE1' : (E':ℝ) / 64 ≤ 1000 := by
    have : (E':ℝ) ≤ 64000 := by exact_mod_cast q2
    linarith
  have hT0 : (0:ℝ) ≤ (T:ℝ) / 64 := by positivity
  have hT1 : (T:ℝ) / 64 ≤ 9400 := by
    have : (T:ℝ) ≤ 601600 := by exact_mod_cast st.T9
    linarith
  have hA0 := ibA_nonneg k j L (ibL k j L)
  have hEge := ibE_ge k j L (ibL k j L) E
  rw [← eE] at hEge
  set A : ℝ := (ibA k j L (ibL k j L) : ℝ) with hA
  have hu := uro_pos_real f
  have hAE : 0 ≤ A * (E / 64) := by positivity
  obtain ⟨cq', ic, -, ec⟩ := ib_c (f := f) iα ix l1 l3 uc rfl hα2 hA0 hAc hα hE0 hE1 st.ec
  obtain ⟨dq', id, ed⟩ := ib_d (f := f) iα iy l2 l4 ut rfl hα2 hA0 hAt hα hE0 hE1 st.ed (by linarith)
  have ec' : |(cq':ℝ) - (1 + al a b z j / c)| ≤ E' / 64 * uro f * (1 + al a b z j / c) := by
    refine ec.trans (mul_le_mul_of_nonneg_right (mul_le_mul_of_nonneg_right ?_ hu.le) (by linarith))
    linarith
  have ed' : |(dq':ℝ) * (1 + al a b z j / t) - 1| ≤ E' / 64 * uro f := by
    refine ed.trans (mul_le_mul_of_nonneg_right ?_ hu.le)
    linarith
  obtain ⟨fq', iF, ef⟩ := ib_f (f := f) ic id iw st.p0 st.p1 l3 uc l4 ut hT0 hE0' hT1 hE1' st.ef ec' ed'
  refine ⟨cq', dq', fq', _, _, _, ic, id, iF, ⟨q1, q2, ?_, lc, lt, ec', ed', ?_, ?_, hp0, hp1, hid⟩, uc, ut, hK⟩
  · have hK1 : 1 ≤ ibK k j (ibL k j L) := le_max_left _ _
    have h0 : (0:ℚ) ≤ ibK k j (ibL k j L) * (2 * E' / 64 + 2) := by positivity
    have : (T':ℚ) ≤ 601600 := by linarith
    exact_mod_cast this
  · refine ef.trans (mul_le_mul_of_nonneg_right (mul_le_mul_of_nonneg_right ?_ hu.le) (le_trans (by norm_num) hp0))
    rw [eT]
    exact ibT_ge E' T
  · rw [eR]; exact hr

end Gcem.Props
