import Verif.Props.IgammaTail
import Verif.Analysis.Kummer

/-!
# C79: accuracy of incomplete_gamma in the region of the lower continued fraction
-/

namespace Gcem.Props
open Gcem FV Ku
variable {f : Fmt}

/-- bound for the factor by which a relative error is carried from depth `d+1` to depth `d`, for `c + 1/2 ≤ a ≤ c + 3/2` -/
def lgA (c d : ℕ) : ℚ := if d % 2 = 1 then ((c:ℚ) + 23 / 2) / (2 * ((d:ℚ) - 1)) else min 1 (((c:ℚ) + 23 / 2) / (4 * c + 2 * d - 1))

/-- bound for `1 / (1 - ρ)`, `ρ` being the relative error at depth `d+1` -/
def lgG (d : ℕ) : ℚ := if d = 54 then 5 / 4 else if d = 53 then 21 / 20 else if 48 ≤ d then 101 / 100 else 1002 / 1000

/-- what is left of the truncation error at depth `55 - n` -/
def lgX (c : ℕ) : ℕ → ℚ
  | 0 => lgA c 55
  | n + 1 => (1 + 1 / 10 ^ 7) * (lgA c (54 - n) * lgG (54 - n)) * lgX c n

/-- rounding errors in units of the unit roundoff at depth `55 - n` -/
def lgR (c : ℕ) : ℕ → ℚ
  | 0 => 5
  | n + 1 => (1 + 1 / 10 ^ 7) * (lgA c (54 - n) * lgG (54 - n)) * lgR c n + (106 / 100 + 270 / 100 * (1 + lgA c (54 - n)) + 404 / 100 * (lgA c (54 - n) * lgG (54 - n)))

theorem lg_table : ∀ c < 10, ∀ n < 54, lgX c n + 1 / 1000 ≤ 1 - 1 / lgG (54 - n) ∧ lgR c n ≤ 10000 ∧ 0 ≤ lgX c n ∧ 0 ≤ lgR c n := by decide +kernel

theorem lg_last : ∀ c < 10, lgX c 53 ≤ 1 / 100000000000000000000 ∧ lgR c 53 ≤ 302 := by decide +kernel

theorem lgA_le : ∀ c < 10, ∀ d < 56, 2 ≤ d → lgA c d ≤ 513 / 100 ∧ 0 ≤ lgA c d := by decide +kernel

theorem lgG_bd (d : ℕ) : 1 ≤ lgG d ∧ lgG d ≤ 5 / 4 := by
  unfold lgG
  split
  · norm_num
  split
  · norm_num
  split <;> norm_num

structure IgLow (a z : ℝ) (c : ℕ) : Prop where
  c9 : c < 10
  a0 : c + 1 / 2 ≤ a
  a1 : a ≤ c + 3 / 2
  z0 : 0 < z
  z1 : z ≤ a + 10

namespace IgLow
variable {a z : ℝ} {c : ℕ}

theorem a0' (h : IgLow a z c) : 1 / 2 ≤ a := by have := h.a0; have : (0:ℝ) ≤ c := Nat.cast_nonneg c; linarith
theorem ap (h : IgLow a z c) : 0 < a := by linarith [h.a0']
theorem zp (h : IgLow a z c) : 0 ≤ z := h.z0.le

theorem amp (h : IgLow a z c) {d : ℕ} (hd : 2 ≤ d) : |cf a z d| / KT a z (d + 1) ≤ (lgA c d : ℝ) * KT a z d := by
  have hz := h.zp
  have ha := h.ap
  have h0 := h.a0
  have h1 := h.a1
  have h2 := h.z1
  have hc : (0:ℝ) ≤ c := Nat.cast_nonneg c
  rcases Nat.even_or_odd' d with ⟨k, rfl | rfl⟩
  · have hk : 1 ≤ k := by omega
    have hk' : (1:ℝ) ≤ k := by exact_mod_cast hk
    have hp := KT_pos ha hz (d := 2 * k) (by omega)
    unfold lgA
    rw [if_neg (by omega)]
    push_cast
    rcases min_choice (1:ℝ) (((c:ℝ) + 23 / 2) / (4 * c + 2 * (2 * k) - 1)) with e | e <;> rw [e]
    · rw [one_mul]; exact amp_even_one ha hz hk
    · refine (amp_even ha hz hk).trans (mul_le_mul_of_nonneg_right ?_ hp.le)
      exact div_le_div₀ (by linarith) (by linarith) (by linarith) (by linarith)
  · have hk : 1 ≤ k := by omega
    have hk' : (1:ℝ) ≤ k := by exact_mod_cast hk
    have hp := KT_pos ha hz (d := 2 * k + 1) (by omega)
    unfold lgA
    rw [if_pos (by omega)]
    push_cast
    refine (amp_odd ha hz hk).trans (mul_le_mul_of_nonneg_right ?_ hp.le)
    exact div_le_div₀ (by linarith) (by linarith) (by linarith) (by linarith)

theorem lead (h : IgLow a z c) {d : ℕ} (hd : 2 ≤ d) (hd2 : d < 56) : 24 / 100 ≤ KT a z d := by
  have hp := KT_pos h.ap h.zp (d := d) (by omega)
  have h1 := h.amp hd
  have h2 := KT_rec h.ap h.zp (d := d) (by omega)
  have h3 : (lgA c d : ℝ) ≤ 513 / 100 := by
    have := (Rat.cast_le (K := ℝ)).2 (lgA_le c h.c9 d hd2 hd).1; push_cast at this; exact this
  have h4 := mul_le_mul_of_nonneg_right h3 hp.le
  have h5 := le_abs_self (cf a z d / KT a z (d + 1))
  rw [abs_div, abs_of_pos (KT_pos h.ap h.zp (d := d + 1) (by omega))] at h5
  have h6 := neg_abs_le (cf a z d / KT a z (d + 1))
  rw [abs_div, abs_of_pos (KT_pos h.ap h.zp (d := d + 1) (by omega))] at h6
  have h7 := h.a0'
  have hd' : (2:ℝ) ≤ d := by exact_mod_cast hd
  linarith

end IgLow

/-- one level of the recursion, in real numbers -/
theorem lg_step {u A g b N t t' τ κ β q r ρ l : ℝ} (hu : 0 < u) (hu7 : u ≤ 1 / 10 ^ 7) (hA0 : 0 ≤ A) (hg1 : 1 ≤ g)
    (ht : t = b + N / t') (ht0 : 0 < t) (ht' : 0 < t') (hτ : 1 / 6 ≤ τ) (hl0 : 0 ≤ l) (hβ : |β - b| ≤ l * u * b)
    (hκ : |κ - N| ≤ 302 / 100 * u * |N| + u / 1000) (hq : |q - κ / τ| ≤ u * |κ / τ| + u / 1000) (hr : |r - (β + q)| ≤ u * |β + q|)
    (hρ : |τ - t'| ≤ ρ * t') (hg : 1 ≤ (1 - ρ) * g) (hA : |N| / t' ≤ A * t) :
    |r - t| ≤ ((1 + u) * (A * g * ρ) + (101 / 100 + 101 / 100 * l * (1 + A) + 404 / 100 * (A * g)) * u) * t + u / 100 := by
  have hτ0 : 0 < τ := by linarith
  have hNτ : |N| / τ ≤ A * g * t := by
    have h1 : t' ≤ τ * g := by
      have := (abs_le.1 hρ).1
      have h2 : (1 - ρ) * t' ≤ τ := by linarith
      calc t' ≤ ((1 - ρ) * g) * t' := le_mul_of_one_le_left ht'.le hg
        _ = ((1 - ρ) * t') * g := by ring
        _ ≤ τ * g := mul_le_mul_of_nonneg_right h2 (by linarith)
    rw [div_le_iff₀ ht'] at hA
    rw [div_le_iff₀ hτ0]
    calc |N| ≤ A * t * t' := hA
      _ ≤ A * t * (τ * g) := by gcongr
      _ = _ := by ring
  have e1 : |N / τ - N / t'| ≤ A * g * t * ρ := by
    rw [show N / τ - N / t' = N / τ * ((t' - τ) / t') by field_simp, abs_mul, abs_div, abs_of_pos hτ0, abs_div, abs_of_pos ht', abs_sub_comm]
    have : |τ - t'| / t' ≤ ρ := by rw [div_le_iff₀ ht']; exact hρ
    gcongr
  have e2 : b ≤ (1 + A) * t := by
    have := neg_abs_le (N / t')
    rw [abs_div, abs_of_pos ht'] at this
    linarith
  have e3 : |κ / τ - N / τ| ≤ 302 / 100 * u * (A * g * t) + u / 160 := by
    rw [← sub_div, abs_div, abs_of_pos hτ0, div_le_iff₀ hτ0]
    rw [div_le_iff₀ hτ0] at hNτ
    have : 302 / 100 * u * |N| ≤ 302 / 100 * u * (A * g * t * τ) := by gcongr
    have : u / 160 * (1 / 6) ≤ u / 160 * τ := by gcongr
    linarith
  have hAgt : 0 ≤ A * g * t := by positivity
  have e4 : |κ / τ| ≤ 1001 / 1000 * (A * g * t) + u / 160 := by
    have h1 := abs_add_le (κ / τ - N / τ) (N / τ)
    rw [sub_add_cancel, abs_div N, abs_of_pos hτ0] at h1
    have : u * (A * g * t) ≤ 1 / 10 ^ 7 * (A * g * t) := by gcongr
    norm_num at this
    linarith
  have e5 : u * |κ / τ| ≤ u * (1001 / 1000 * (A * g * t) + u / 160) := by gcongr
  have e6 : u * (u / 160) ≤ 1 / 10 ^ 7 * (u / 160) := by gcongr
  have hΔ : |β + q - t| ≤ (l * (1 + A) + 4022 / 1000 * (A * g)) * u * t + A * g * ρ * t + u / 130 := by
    have a1 := abs_add_le (β - b) (q - N / t')
    rw [show β - b + (q - N / t') = β + q - t by rw [ht]; ring] at a1
    have a2 := abs_sub_le q (κ / τ) (N / t')
    have a3 := abs_sub_le (κ / τ) (N / τ) (N / t')
    have a4 : l * u * b ≤ l * u * ((1 + A) * t) := by gcongr
    norm_num at e6
    have a5 : 0 ≤ u * (A * g * t) := by positivity
    linarith
  have h3 : |β + q| ≤ |β + q - t| + t := by
    have := abs_add_le (β + q - t) t
    rw [sub_add_cancel, abs_of_pos ht0] at this; exact this
  have h4 := abs_sub_le r (β + q) t
  have h5 : u * |β + q| ≤ u * (|β + q - t| + t) := by gcongr
  have h6 : (1 + u) * |β + q - t| ≤ (1 + u) * ((l * (1 + A) + 4022 / 1000 * (A * g)) * u * t + A * g * ρ * t + u / 130) := by gcongr
  have h7 : u * ((l * (1 + A) + 4022 / 1000 * (A * g)) * u * t) ≤ 1 / 10 ^ 7 * ((l * (1 + A) + 4022 / 1000 * (A * g)) * u * t) := by gcongr
  have h8 : 0 ≤ u * t := by positivity
  have h9 : 0 ≤ A * g * (u * t) := by positivity
  have h10 : 0 ≤ l * (1 + A) * (u * t) := by positivity
  have h11 : u * (u / 130) ≤ 1 / 10 ^ 7 * (u / 130) := by gcongr
  norm_num at h7 h11
  linarith

/-- the leading term `a + d - 1` -/
theorem lg_den {a : ℚ} {wa : Bool} (ha : Valid (fin a wa : FV f)) (a1 : 1 / 2 ≤ a) (a2 : a ≤ 1024) {d : ℕ} (hd : 1 ≤ d) (hd2 : d < 56) :
    ∃ β : ℚ, Rep f β ∧ Is (fin a wa + i d - i 1 : FV f) β ∧
      |(β:ℝ) - (a + d - 1)| ≤ (2001 / 1000 * (a + d - 1) + 1) * uro f ∧ |β| ≤ 2048 := by
  have hu := uro_pos_real f
  have hu7 := uro7_real f
  have hd1r : (1:ℝ) ≤ d := by exact_mod_cast hd
  have hd2r : (d:ℝ) ≤ 56 := by exact_mod_cast hd2.le
  have a1' : (1 / 2 : ℝ) ≤ a := by have := (Rat.cast_le (K := ℝ)).2 a1; push_cast at this; exact this
  have a2' : (a:ℝ) ≤ 1024 := by have := (Rat.cast_le (K := ℝ)).2 a2; push_cast at this; exact this
  have hp : (16777216:ℤ) ≤ 2 ^ f.prec := two_pow_prec f
  have id' : Is (i (d:ℤ) : FV f) (d:ℚ) := by
    have := is_i (f := f) (n := d) (by rw [abs_le]; constructor <;> omega)
    push_cast at this; exact this
  have i1' : Is (i 1 : FV f) (1:ℚ) := by
    have := is_i (f := f) (n := 1) (by norm_num)
    push_cast at this; exact this
  have hrd : Rep f (d:ℚ) := by
    have := rep_int (f := f) (n := d) (by rw [abs_le]; constructor <;> omega)
    push_cast at this; exact this
  have hr1 : Rep f (1:ℚ) := by
    have := rep_int (f := f) (n := 1) (by rw [abs_le]; constructor <;> omega)
    push_cast at this; exact this
  have e1 := rnd_add_real ha.rep hrd
  have e2 := rnd_add_real (rep_rnd f (a + d)) hr1.neg
  rw [← sub_eq_add_neg] at e2
  have j1 := fun h => (is_fin (f := f) a wa).add id' h
  have j2 := fun h h' => (j1 h).sub i1' h'
  generalize hs : rnd f (a + d) = s at *
  generalize hr : rnd f (s - 1) = r at *
  push_cast at e1 e2
  rw [abs_of_nonneg (show (0:ℝ) ≤ a + d by linarith)] at e1
  rw [← sub_eq_add_neg] at e2
  have e3 : |(s:ℝ) - 1| ≤ (a + d - 1) + uro f * (a + d) := by
    have := abs_add_le ((s:ℝ) - (a + d)) (a + d - 1)
    rw [show (s:ℝ) - (a + d) + (a + d - 1) = s - 1 by ring, abs_of_nonneg (show (0:ℝ) ≤ a + d - 1 by linarith)] at this
    linarith
  have e4 : uro f * |(s:ℝ) - 1| ≤ uro f * ((a + d - 1) + uro f * (a + d)) := by gcongr
  have e5 : (uro f : ℝ) * ((uro f : ℝ) * ((a:ℝ) + d)) ≤ (uro f : ℝ) * (1 / 10 ^ 7 * ((a:ℝ) + d)) := by
    have : (0:ℝ) ≤ a + d := by linarith
    gcongr
  have e6 : |(r:ℝ) - (a + d - 1)| ≤ (2001 / 1000 * (a + d - 1) + 1) * uro f := by
    have h1 := abs_sub_le (r:ℝ) (s - 1) (a + d - 1)
    rw [show (s:ℝ) - 1 - (a + d - 1) = s - (a + d) by ring] at h1
    have h2 : uro f * 1 ≤ uro f * (2 * (a + d - 1) : ℝ) := mul_le_mul_of_nonneg_left (by linarith) hu.le
    norm_num at e5
    linarith
  have hub : uro f * (a + d : ℝ) ≤ 1 / 10 ^ 7 * 1080 := mul_le_mul hu7 (by linarith) (by linarith) (by norm_num)
  have e7 : |r| ≤ 2048 := by
    rw [← Rat.cast_le (K := ℝ)]; push_cast
    have h1 := abs_add_le ((r:ℝ) - (a + d - 1)) (a + d - 1)
    rw [sub_add_cancel, abs_of_nonneg (show (0:ℝ) ≤ a + d - 1 by linarith)] at h1
    norm_num at hub hu7
    linarith
  refine ⟨r, hr ▸ rep_rnd _ _, j2 (hs ▸ nov ?_) (hr ▸ nov ?_), e6, e7⟩
  · rw [abs_of_nonneg (by positivity)]
    rw [← Rat.cast_le (K := ℝ)]; push_cast; norm_num; linarith
  · rw [← Rat.cast_le (K := ℝ)]; push_cast
    norm_num at hub ⊢; linarith

/-- the partial numerators -/
theorem lg_num {a z : ℚ} {wa wz : Bool} (ha : Valid (fin a wa : FV f)) (a1 : 1 / 2 ≤ a) (a2 : a ≤ 1024)
    (z1 : 0 ≤ z) (z2 : z ≤ 1024) {d : ℕ} (hd : 1 ≤ d) (hd2 : d < 56) :
    ∃ κ : ℚ, Is (incomplete_gamma_cf_1_coef (fin a wa : FV f) (fin z wz) d) κ ∧
      |(κ:ℝ) - cf a z d| ≤ 302 / 100 * uro f * |cf a z d| + uro f / 1000 ∧ |κ| ≤ 2 ^ 22 := by
  have hu := uro_pos_real f
  have hu7 := uro7_real f
  have a1' : (1 / 2 : ℝ) ≤ a := by have := (Rat.cast_le (K := ℝ)).2 a1; push_cast at this; exact this
  have a2' : (a:ℝ) ≤ 1024 := by have := (Rat.cast_le (K := ℝ)).2 a2; push_cast at this; exact this
  have z1' : (0:ℝ) ≤ z := by exact_mod_cast z1
  have z2' : (z:ℝ) ≤ 1024 := by have := (Rat.cast_le (K := ℝ)).2 z2; push_cast at this; exact this
  have hp : (16777216:ℤ) ≤ 2 ^ f.prec := two_pow_prec f
  have ii : ∀ n : ℕ, n < 60 → Is (i (n:ℤ) : FV f) (n:ℚ) := fun n hn => by
    have := is_i (f := f) (n := n) (by rw [abs_le]; constructor <;> omega)
    push_cast at this; exact this
  have rr : ∀ n : ℕ, n < 60 → Rep f (n:ℚ) := fun n hn => by
    have := rep_int (f := f) (n := n) (by rw [abs_le]; constructor <;> omega)
    push_cast at this; exact this
  have half : ∀ m : ℕ, m < 29 → Is (i ((2 * m : ℕ) : ℤ) / i 2 : FV f) (m:ℚ) := fun m hm => by
    have e : ((2 * m : ℕ) : ℚ) / ((2:ℕ):ℚ) = m := by push_cast; field_simp
    have := (ii (2 * m) (by omega)).div (ii 2 (by norm_num)) (by norm_num) (nov (by
      rw [e, abs_of_nonneg (by positivity)]
      have : (m:ℚ) ≤ 29 := by exact_mod_cast hm.le
      linarith))
    rw [e, show rnd f (m:ℚ) = m from rr m (by omega)] at this
    exact this
  unfold incomplete_gamma_cf_1_coef cf
  rcases Nat.even_or_odd' d with ⟨m, rfl | rfl⟩
  · rw [if_neg (by omega), if_neg (by omega)]
    have hm2 : (m:ℝ) ≤ 28 := by exact_mod_cast (show m ≤ 28 by omega)
    have hm0 : (0:ℝ) ≤ m := Nat.cast_nonneg m
    have hmz : (m:ℝ) * z ≤ 28 * 1024 := by gcongr
    have hmz0 : (0:ℝ) ≤ m * z := by positivity
    have h := (half m (by omega)).mul (is_fin (f := f) z wz) (nov (by
      rw [abs_of_nonneg (by positivity), ← Rat.cast_le (K := ℝ)]; push_cast; norm_num; linarith))
    have e := rnd_all_real f ((m:ℚ) * z)
    push_cast at e
    have ec : ((2 * m : ℕ) : ℝ) / 2 * z = m * z := by push_cast; ring
    rw [ec]
    rw [abs_of_nonneg hmz0] at e ⊢
    refine ⟨_, h, e.trans ?_, ?_⟩
    · have : 0 ≤ uro f * (m * z : ℝ) := by positivity
      linarith
    · have : uro f * (m * z : ℝ) ≤ 1 / 10 ^ 7 * (28 * 1024) := by gcongr
      rw [← Rat.cast_le (K := ℝ)]; push_cast
      have h1 := abs_add_le (((rnd f (m * z) : ℚ) : ℝ) - m * z) (m * z)
      rw [sub_add_cancel, abs_of_nonneg hmz0] at h1
      norm_num at this hu7 ⊢
      linarith
  · rw [if_pos (by omega), if_pos (by omega)]
    have hm2 : (m:ℝ) ≤ 28 := by exact_mod_cast (show m ≤ 28 by omega)
    have hm0 : (0:ℝ) ≤ m := Nat.cast_nonneg m
    have e1 := rnd_add_real ha.rep (rr 1 (by norm_num)).neg
    have e2 := rnd_add_real (rep_rnd f (a - 1)) (rr (m + 1) (by omega))
    have e3 := rnd_all_real f (-rnd f (rnd f (a - 1) + (m + 1 : ℕ)) * z)
    have j1 := fun h => (is_fin (f := f) a wa).sub (ii 1 (by norm_num)) h
    have j2 := fun h h' => (j1 h).add (half (m + 1) (by omega)) h'
    have j3 := fun h h' h'' => (j2 h h').neg.mul (is_fin (f := f) z wz) h''
    rw [← sub_eq_add_neg] at e1
    push_cast at e1 e2 e3 j1 j2 j3
    rw [← sub_eq_add_neg] at e1
    generalize h1 : rnd f (a - 1) = v1 at *
    generalize h2 : rnd f (v1 + (m + 1)) = v2 at *
    generalize h3 : rnd f (-v2 * z) = v3 at *
    have hs0 : 1 / 2 ≤ (a:ℝ) + m := by linarith
    have es : (a:ℝ) - 1 + (((2 * m + 1 : ℕ) : ℝ) + 1) / 2 = a + m := by push_cast; ring
    rw [es, abs_neg]
    have b1 : |(a:ℝ) - 1| ≤ a + m := by rw [abs_le]; constructor <;> linarith
    have b2 : uro f * |(a:ℝ) - 1| ≤ uro f * (a + m) := by gcongr
    have b3 : |(v1:ℝ) + (m + 1)| ≤ (1 + uro f) * (a + m) := by
      have := abs_add_le ((v1:ℝ) - (a - 1)) (a + m)
      rw [show (v1:ℝ) - (a - 1) + (a + m) = v1 + (m + 1) by ring, abs_of_nonneg (show (0:ℝ) ≤ a + m by linarith)] at this
      linarith
    have b4 : uro f * |(v1:ℝ) + (m + 1)| ≤ uro f * ((1 + uro f) * (a + m)) := by gcongr
    have b5 : uro f * (uro f * (a + m)) ≤ uro f * (1 / 10 ^ 7 * (a + m) : ℝ) := by gcongr
    have b6 : |(v2:ℝ) - (a + m)| ≤ 2001 / 1000 * uro f * (a + m) := by
      have := abs_sub_le (v2:ℝ) (v1 + (m + 1)) (a + m)
      rw [show (v1:ℝ) + (m + 1) - (a + m) = v1 - (a - 1) by ring] at this
      have : 0 ≤ uro f * (a + m : ℝ) := by positivity
      norm_num at b5
      linarith
    have b7 : uro f * (a + m : ℝ) ≤ 1 / 10 ^ 7 * (a + m) := by gcongr
    have b8 : |(v2:ℝ)| ≤ 1001 / 1000 * (a + m) := by
      have := abs_add_le ((v2:ℝ) - (a + m)) (a + m)
      rw [sub_add_cancel, abs_of_nonneg (show (0:ℝ) ≤ a + m by linarith)] at this
      norm_num at b7
      linarith
    rw [abs_of_nonneg (show (0:ℝ) ≤ (a + m) * z by positivity)]
    have b9 : |-(v2:ℝ) * z| ≤ 1001 / 1000 * ((a + m) * z) := by
      rw [abs_mul, abs_neg, abs_of_nonneg z1']
      refine (mul_le_mul_of_nonneg_right b8 z1').trans (le_of_eq (by ring))
    have b10 : |-(v2:ℝ) * z - -((a + m) * z)| ≤ 2001 / 1000 * uro f * ((a + m) * z) := by
      rw [show -(v2:ℝ) * z - -((a + m) * z) = -((v2 - (a + m)) * z) by ring, abs_neg, abs_mul, abs_of_nonneg z1']
      refine (mul_le_mul_of_nonneg_right b6 z1').trans (le_of_eq (by ring))
    have b11 : uro f * |-(v2:ℝ) * z| ≤ uro f * (1001 / 1000 * ((a + m) * z)) := by gcongr
    have b12 : ((a:ℝ) + m) * z ≤ 1052 * 1024 := by
      have : (a:ℝ) + m ≤ 1052 := by linarith
      gcongr
    have b13 : 0 ≤ uro f * (((a:ℝ) + m) * z) := by positivity
    have b14 : uro f * (((a:ℝ) + m) * z) ≤ 1 / 10 ^ 7 * (1052 * 1024) := by gcongr
    refine ⟨v3, j3 (h1 ▸ nov ?_) (h2 ▸ nov ?_) (h3 ▸ nov ?_), ?_, ?_⟩
    · rw [← Rat.cast_le (K := ℝ)]; push_cast; norm_num at b1 ⊢; linarith
    · rw [← Rat.cast_le (K := ℝ)]; push_cast; norm_num at b3 b7 ⊢; linarith
    · rw [← Rat.cast_le (K := ℝ)]; push_cast; norm_num at b9 b12 ⊢; linarith
    · have := abs_sub_le (v3:ℝ) (-v2 * z) (-((a + m) * z))
      linarith
    · rw [← Rat.cast_le (K := ℝ)]; push_cast
      have := abs_sub_abs_le_abs_sub (v3:ℝ) (-v2 * z)
      generalize |-(v2:ℝ) * z| = y at *
      norm_num at b12 b14 hu7 ⊢
      linarith

/-- the division of one level -/
theorem lg_quot {κ τ : ℚ} {x y : FV f} (hx : Is x κ) (hy : Is y τ) (hκ : |κ| ≤ 2 ^ 22) (hτ : (1 / 6 : ℝ) ≤ τ) :
    ∃ q : ℚ, Rep f q ∧ Is (x / y) q ∧ |(q:ℝ) - κ / τ| ≤ uro f * |(κ / τ : ℝ)| + uro f / 1000 ∧ |q| ≤ 2 ^ 26 := by
  have hu7 := uro7_real f
  have hτ0 : (0:ℝ) < τ := by linarith
  have hτ' : (0:ℚ) < τ := by exact_mod_cast hτ0
  have hq : |κ / τ| ≤ 2 ^ 25 := by
    rw [abs_div, abs_of_pos hτ', div_le_iff₀ hτ']
    have : (1 / 6 : ℚ) ≤ τ := by rw [← Rat.cast_le (K := ℝ)]; push_cast; exact hτ
    norm_num at hκ ⊢
    linarith
  have e := rnd_all_real f (κ / τ)
  push_cast at e
  refine ⟨rnd f (κ / τ), rep_rnd _ _, hx.div hy hτ'.ne' (nov (hq.trans (by norm_num))), e, ?_⟩
  have hq' := (Rat.cast_le (K := ℝ)).2 hq
  push_cast at hq'
  rw [← Rat.cast_le (K := ℝ)]; push_cast
  have h2 := abs_sub_abs_le_abs_sub ((rnd f (κ / τ) : ℚ) : ℝ) (κ / τ)
  have h3 : uro f * |(κ / τ : ℝ)| ≤ 1 / 10 ^ 7 * 2 ^ 25 := mul_le_mul hu7 hq' (abs_nonneg _) (by norm_num)
  norm_num only at h3 hq' hu7 ⊢
  linarith

/-- the evaluation of one level, in floating point and in real numbers -/
theorem lg_level {a z : ℚ} {wa wz : Bool} {c : ℕ} (ha : Valid (fin a wa : FV f)) (hL : IgLow a z c) {d : ℕ} (hd : 1 ≤ d) (hd2 : d < 55)
    {τ : ℚ} (iτ : Is (incomplete_gamma_cf_1_recur (fin a wa : FV f) (fin z wz) (d + 1)) τ) (hτ : (1 / 6 : ℝ) ≤ τ) {A g ρ l : ℝ}
    (hA0 : 0 ≤ A) (hg1 : 1 ≤ g) (hl0 : 0 ≤ l) (hl : 2001 / 1000 * ((a:ℝ) + d - 1) + 1 ≤ l * (a + d - 1))
    (hρ : |(τ:ℝ) - KT a z (d + 1)| ≤ ρ * KT a z (d + 1)) (hg : 1 ≤ (1 - ρ) * g) (hA : |cf a z d| / KT a z (d + 1) ≤ A * KT a z d) :
    ∃ r : ℚ, Is (incomplete_gamma_cf_1_recur (fin a wa : FV f) (fin z wz) d) r ∧
      |(r:ℝ) - KT a z d| ≤ ((1 + uro f) * (A * g * ρ) + (101 / 100 + 101 / 100 * l * (1 + A) + 404 / 100 * (A * g)) * uro f) * KT a z d + uro f / 100 := by
  have hu := uro_pos_real f
  have hu7 := uro7_real f
  have hc : (c:ℝ) < 10 := by exact_mod_cast hL.c9
  have a1' := hL.a0'
  have a2' := hL.a1
  have z1' := hL.z1
  have z0' := hL.z0
  have a1 : (1 / 2 : ℚ) ≤ a := by rw [← Rat.cast_le (K := ℝ)]; push_cast; exact a1'
  have a2 : a ≤ 1024 := by rw [← Rat.cast_le (K := ℝ)]; push_cast; linarith
  have z1 : 0 ≤ z := by rw [← Rat.cast_le (K := ℝ)]; push_cast; linarith
  have z2 : z ≤ 1024 := by rw [← Rat.cast_le (K := ℝ)]; push_cast; linarith
  have hd1r : (1:ℝ) ≤ d := by exact_mod_cast hd
  obtain ⟨β, rβ, iβ, bβ, mβ⟩ := lg_den ha a1 a2 hd (by omega)
  obtain ⟨κ, iκ, bκ, mκ⟩ := lg_num (wz := wz) ha a1 a2 z1 z2 hd (by omega)
  obtain ⟨q, rq, iq, bq, mq⟩ := lg_quot iκ iτ mκ hτ
  have e := rnd_add_real rβ rq
  have hs : |β + q| ≤ 2 ^ 27 := by
    have := abs_add_le β q
    norm_num at mβ mq ⊢; linarith
  have ir := iβ.add iq (nov (hs.trans (by norm_num)))
  refine ⟨rnd f (β + q), ?_, ?_⟩
  · rw [incomplete_gamma_cf_1_recur, if_pos (show d < INCML_GAMMA_MAX_ITER from hd2)]
    exact ir
  · have bβ' : |(β:ℝ) - (a + d - 1)| ≤ l * uro f * (a + d - 1) := by
      refine bβ.trans ((mul_le_mul_of_nonneg_right hl hu.le).trans (le_of_eq (by ring)))
    exact lg_step hu hu7 hA0 hg1 (KT_rec hL.ap hL.zp hd) (KT_pos hL.ap hL.zp hd) (KT_pos hL.ap hL.zp (by omega)) hτ hl0 bβ' bκ bq e hρ hg hA

/-- the recursion down to depth 2 -/
theorem lg_cf {a z : ℚ} {wa wz : Bool} {c : ℕ} (ha : Valid (fin a wa : FV f)) (hL : IgLow a z c) : ∀ n ≤ 53,
    ∃ τ : ℚ, Is (incomplete_gamma_cf_1_recur (fin a wa : FV f) (fin z wz) (55 - n)) τ ∧
      |(τ:ℝ) - KT a z (55 - n)| ≤ (lgR c n * uro f + lgX c n) * KT a z (55 - n) ∧
      1 ≤ (1 - (lgR c n * uro f + lgX c n)) * (lgG (54 - n) : ℝ) ∧ (1 / 6 : ℝ) ≤ τ := by
  have hu := uro_pos_real f
  have hu7 := uro7_real f
  have hc : (c:ℝ) < 10 := by exact_mod_cast hL.c9
  have a1' := hL.a0'
  have a2' := hL.a1
  have a1 : (1 / 2 : ℚ) ≤ a := by rw [← Rat.cast_le (K := ℝ)]; push_cast; exact a1'
  have a2 : a ≤ 1024 := by rw [← Rat.cast_le (K := ℝ)]; push_cast; linarith
  -- consequences of the table
  have tail : ∀ n ≤ 53, ∀ τ : ℚ, |(τ:ℝ) - KT a z (55 - n)| ≤ (lgR c n * uro f + lgX c n) * KT a z (55 - n) →
      1 ≤ (1 - (lgR c n * uro f + lgX c n)) * (lgG (54 - n) : ℝ) ∧ (1 / 6 : ℝ) ≤ τ := by
    intro n hn τ h
    obtain ⟨t1, t2, t3, t4⟩ := lg_table c hL.c9 n (by omega)
    obtain ⟨g1, g2⟩ := lgG_bd (54 - n)
    have t1' := (Rat.cast_le (K := ℝ)).2 t1
    have t2' := (Rat.cast_le (K := ℝ)).2 t2
    have t4' := (Rat.cast_le (K := ℝ)).2 t4
    have g1' := (Rat.cast_le (K := ℝ)).2 g1
    have g2' := (Rat.cast_le (K := ℝ)).2 g2
    push_cast at t1' t2' t4' g1' g2'
    have k1 : (lgR c n : ℝ) * uro f ≤ 10000 * (1 / 10 ^ 7) := mul_le_mul t2' hu7 hu.le (by norm_num)
    have k2 : 1 / (lgG (54 - n) : ℝ) ≤ 1 - (lgR c n * uro f + lgX c n) := by norm_num only at k1 ⊢; linarith
    have k3 : 1 ≤ (1 - (lgR c n * uro f + lgX c n)) * (lgG (54 - n) : ℝ) := by
      rwa [div_le_iff₀ (by linarith)] at k2
    refine ⟨k3, ?_⟩
    have k4 : 4 / 5 ≤ 1 - (lgR c n * uro f + lgX c n : ℝ) := by
      refine le_trans ?_ k2
      rw [le_div_iff₀ (by linarith)]; linarith
    have k5 := hL.lead (d := 55 - n) (by omega) (by omega)
    have k6 := (abs_le.1 h).1
    have k7 := mul_le_mul k4 k5 (by norm_num) (by linarith)
    norm_num only at k7 ⊢
    linarith
  intro n
  induction n with
  | zero =>
    intro _
    obtain ⟨β, -, iβ, bβ, -⟩ := lg_den (d := 55) ha a1 a2 (by norm_num) (by norm_num)
    have hp := KT_pos hL.ap hL.zp (d := 55) (by norm_num)
    have hp' := KT_pos hL.ap hL.zp (d := 56) (by norm_num)
    have h1 := hL.amp (d := 55) (by norm_num)
    have h2 := KT_rec hL.ap hL.zp (d := 55) (by norm_num)
    have h3 : (lgA c 55 : ℝ) ≤ 1 := by
      have : lgA c 55 ≤ 1 := by
        have := hL.c9
        unfold lgA
        norm_num
        have : (c:ℚ) < 10 := by exact_mod_cast this
        linarith
      exact_mod_cast this
    have h4 : |cf a z 55 / KT a z (55 + 1)| ≤ (lgA c 55 : ℝ) * KT a z 55 := by
      rw [abs_div, abs_of_pos hp']; exact h1
    have h5 := mul_le_mul_of_nonneg_right h3 hp.le
    have h6 := (abs_le.1 h4).1
    have main : |(β:ℝ) - KT a z (55 - 0)| ≤ (lgR c 0 * uro f + lgX c 0) * KT a z (55 - 0) := by
      rw [show (55 - 0 : ℕ) = 55 from rfl]
      simp only [lgR, lgX]
      push_cast
      have k1 := abs_sub_le (β:ℝ) (a + (55:ℕ) - 1) (KT a z 55)
      rw [show (a:ℝ) + (55:ℕ) - 1 - KT a z 55 = -(cf a z 55 / KT a z (55 + 1)) by rw [h2]; ring, abs_neg] at k1
      have k2 := mul_le_mul_of_nonneg_left (show 2001 / 1000 * ((a:ℝ) + (55:ℕ) - 1) + 1 ≤ 5 * KT a z 55 by push_cast at h2 ⊢; linarith) hu.le
      linarith
    refine ⟨β, ?_, main, tail 0 (by norm_num) β main⟩
    rw [incomplete_gamma_cf_1_recur, if_neg (by decide)]
    exact iβ
  | succ n ih =>
    intro hn
    obtain ⟨τ, iτ, bτ, gτ, mτ⟩ := ih (by omega)
    have e55 : 55 - n = (54 - n) + 1 := by omega
    rw [e55] at iτ bτ
    obtain ⟨g1, g2⟩ := lgG_bd (54 - n)
    have g1' := (Rat.cast_le (K := ℝ)).2 g1
    push_cast at g1'
    have hA0 : (0:ℝ) ≤ lgA c (54 - n) := by exact_mod_cast (lgA_le c hL.c9 (54 - n) (by omega) (by omega)).2
    have hd1r : (2:ℝ) ≤ ((54 - n : ℕ):ℝ) := by exact_mod_cast (by omega)
    obtain ⟨r, ir, br⟩ := lg_level (l := 267 / 100) ha hL (d := 54 - n) (by omega) (by omega) iτ mτ hA0 g1' (by norm_num)
      (by linarith) bτ gτ (hL.amp (by omega))
    have hR := (lg_table c hL.c9 n (by omega)).2.2.2
    have hX := (lg_table c hL.c9 n (by omega)).2.2.1
    have hR' : (0:ℝ) ≤ lgR c n := by exact_mod_cast hR
    have hX' : (0:ℝ) ≤ lgX c n := by exact_mod_cast hX
    have main : |(r:ℝ) - KT a z (55 - (n + 1))| ≤ (lgR c (n + 1) * uro f + lgX c (n + 1)) * KT a z (55 - (n + 1)) := by
      rw [show 55 - (n + 1) = 54 - n by omega]
      refine br.trans ?_
      have hT := hL.lead (d := 54 - n) (by omega) (by omega)
      simp only [lgR, lgX]
      push_cast
      generalize KT a z (54 - n) = t at *
      generalize (lgA c (54 - n) : ℝ) = A at *
      generalize (lgG (54 - n) : ℝ) = g at *
      generalize (lgR c n : ℝ) = R at *
      generalize (lgX c n : ℝ) = X at *
      generalize (uro f : ℝ) = u at *
      have s1 : u / 100 ≤ 5 / 100 * (u * t) := by
        have := mul_le_mul_of_nonneg_left hT hu.le
        linarith
      have s2 : u * ((A * g * (R * u + X)) * t) ≤ 1 / 10 ^ 7 * ((A * g * (R * u + X)) * t) := by
        have : 0 ≤ t := by linarith
        have : 0 ≤ g := by linarith
        gcongr
      have s3 : 0 ≤ u * t := mul_nonneg hu.le (by linarith)
      have s4 := mul_nonneg hA0 s3
      norm_num only at s2 ⊢
      linarith
    exact ⟨r, by rw [show 55 - (n + 1) = 54 - n by omega]; exact ir, main, tail (n + 1) hn r main⟩

/-- the whole continued fraction -/
theorem lg_cf_one {a z : ℚ} {wa wz : Bool} {c : ℕ} (ha : Valid (fin a wa : FV f)) (hL : IgLow a z c) :
    ∃ τ : ℚ, Is (incomplete_gamma_cf_1_recur (fin a wa : FV f) (fin z wz) 1) τ ∧
      |(τ:ℝ) - KT a z 1| ≤ ((312 * uro f + 2 / 10 ^ 20) * ku 1 (a + 1) z) * KT a z 1 := by
  have hu := uro_pos_real f
  have hu7 := uro7_real f
  have a1' := hL.a0'
  obtain ⟨τ, iτ, bτ, gτ, mτ⟩ := lg_cf (wz := wz) ha hL 53 le_rfl
  norm_num only [show (55 - 53 : ℕ) = 2 from rfl, show (54 - 53 : ℕ) = 1 from rfl] at iτ bτ gτ
  have hM := ku_ge_one (k := 1) (b := a + 1) zero_le_one (by linarith) (by linarith) hL.zp
  have hT1 := KT_one (a:ℝ) z
  obtain ⟨l1, l2⟩ := lg_last c hL.c9
  have hX : (lgX c 53 : ℝ) ≤ 1 / 10 ^ 20 := by
    have := (Rat.cast_le (K := ℝ)).2 l1; push_cast at this; norm_num only at this ⊢; exact this
  have hR : (lgR c 53 : ℝ) ≤ 302 := by have := (Rat.cast_le (K := ℝ)).2 l2; push_cast at this; exact this
  have hR0 : (0:ℝ) ≤ lgR c 53 := by exact_mod_cast (lg_table c hL.c9 53 (by norm_num)).2.2.2
  have hX0 : (0:ℝ) ≤ lgX c 53 := by exact_mod_cast (lg_table c hL.c9 53 (by norm_num)).2.2.1
  have hp2 := KT_pos hL.ap hL.zp (d := 2) (by norm_num)
  have hp1 := KT_pos hL.ap hL.zp (d := 1) (by norm_num)
  have hA : |cf a z 1| / KT a z (1 + 1) ≤ (ku 1 (a + 1) z - 1) * KT a z 1 := by
    have h2 := KT_rec hL.ap hL.zp (d := 1) (by norm_num)
    have hneg : cf a z 1 ≤ 0 := by
      have := mul_nonneg hL.ap.le hL.zp
      simp [cf]
      linarith
    rw [abs_of_nonpos hneg]
    push_cast at h2
    have : (a:ℝ) = ku 1 (a + 1) z * KT a z 1 := by rw [hT1]; field_simp
    rw [neg_div, sub_mul, ← this]
    linarith
  have g1 : (lgG 1 : ℝ) = 1002 / 1000 := by norm_num [lgG]
  rw [g1] at gτ
  obtain ⟨r, ir, br⟩ := lg_level (l := 4001 / 1000) (d := 1) ha hL (by norm_num) (by norm_num) iτ mτ (by linarith) (by norm_num) (by norm_num)
    (by push_cast; linarith) bτ gτ hA
  refine ⟨r, ir, br.trans ?_⟩
  have hMt : 1 / 2 ≤ ku 1 (a + 1) z * KT a z 1 := by
    rw [hT1, mul_div_cancel₀ _ (by linarith)]; exact a1'
  generalize KT a z 1 = t at *
  generalize ku 1 ((a:ℝ) + 1) z = M at *
  generalize (lgR c 53 : ℝ) = R at *
  generalize (lgX c 53 : ℝ) = X at *
  generalize (uro f : ℝ) = u at *
  have s0 : 0 ≤ u * t := mul_nonneg hu.le hp1.le
  have s1 : u / 100 ≤ 2 / 100 * (u * (M * t)) := by
    have := mul_le_mul_of_nonneg_left hMt hu.le
    linarith
  have s2 : (1 + u) * ((M - 1) * (1002 / 1000) * (R * u + X)) ≤ (1 + 1 / 10 ^ 7) * ((M - 1) * (1002 / 1000) * (302 * u + 1 / 10 ^ 20)) := by
    have : 0 ≤ M - 1 := by linarith
    gcongr
  have s3 : (1 + 1 / 10 ^ 7) * ((M - 1) * (1002 / 1000) * (302 * u + 1 / 10 ^ 20)) +
      (101 / 100 + 101 / 100 * (4001 / 1000) * (1 + (M - 1)) + 404 / 100 * ((M - 1) * (1002 / 1000))) * u ≤ (311 * u + 2 / 10 ^ 20) * M := by
    have : 0 ≤ (M - 1) * u := mul_nonneg (by linarith) hu.le
    norm_num only
    linarith
  have s4 := mul_le_mul_of_nonneg_right ((add_le_add_left s2 _).trans s3) hp1.le
  have s5 : 0 ≤ M * (u * t) := mul_nonneg (by linarith) s0
  norm_num only at s4 ⊢
  linarith

/-! ### the size of `1 + z/(a+1) + z²/((a+1)(a+2)) + …` -/

theorem ku_one_rec {b z : ℝ} (hb : 1 < b) (hz : 0 ≤ z) : ku 1 b z = 1 + z / b * ku 1 (b + 1) z := by
  have := ku_odd (k := 0) (b := b - 1) le_rfl (by linarith) (by linarith) hz
  rw [ku_zero] at this
  rw [show b - 1 + 1 = b by ring, show b - 1 + 2 = b + 1 by ring, zero_add] at this
  have h0 : b - 1 ≠ 0 := by linarith
  have h1 : b ≠ 0 := by linarith
  field_simp at this ⊢
  have h2 : (b - 1) * (b * ku 1 b z) = (b - 1) * (b + z * ku 1 (b + 1) z) := by linarith
  exact mul_left_cancel₀ h0 h2

theorem ku_one_mono {b b' z z' : ℝ} (hb : 1 ≤ b) (hbb : b ≤ b') (hz : 0 ≤ z) (hzz : z ≤ z') : ku 1 b' z ≤ ku 1 b z' := by
  unfold ku
  have hc : ∀ n, kuC 1 b' n ≤ kuC 1 b n := by
    intro n
    induction n with
    | zero => simp [kuC]
    | succ n ih =>
      rw [kuC, kuC]
      have := kuC_nonneg (k := 1) (b := b') (by norm_num) (by linarith) n
      have h2 : (0:ℝ) < b + n := by positivity
      have h3 : (0:ℝ) < b' + n := by linarith
      have := kuC_nonneg (k := 1) (b := b) (by norm_num) (by linarith) n
      gcongr
  refine (kuC_summable (by norm_num) (by linarith) (by linarith) hz).tsum_le_tsum (fun n => ?_) (kuC_summable (by norm_num) hb (by linarith) (hz.trans hzz))
  have := kuC_nonneg (k := 1) (b := b') (by norm_num) (by linarith) n
  have := kuC_nonneg (k := 1) (b := b) (by norm_num) (by linarith) n
  have := hc n
  gcongr

/-- upper bound by a finite recursion -/
def lgM (z : ℚ) : ℕ → ℚ → ℚ
  | 0, _ => 2
  | n + 1, b => 1 + z / b * lgM z n (b + 1)

theorem lgM_ge {z : ℚ} (hz : 0 ≤ z) : ∀ (n : ℕ) (b : ℚ), 1 < b → 2 * z ≤ b + n → ku 1 (b:ℝ) z ≤ lgM z n b := by
  intro n
  have hz' : (0:ℝ) ≤ z := by exact_mod_cast hz
  induction n with
  | zero =>
    intro b hb h
    have hb' : (1:ℝ) < b := by exact_mod_cast hb
    have h' : 2 * (z:ℝ) ≤ b := by have := (Rat.cast_le (K := ℝ)).2 h; push_cast at this; linarith
    simp only [lgM]; push_cast
    have h1 := ku_one_rec hb' hz'
    have h2 := ku_one_mono (b := b) (b' := b + 1) hb'.le (by linarith) hz' le_rfl
    have h3 : (z:ℝ) / b ≤ 1 / 2 := by rw [div_le_iff₀ (by linarith)]; linarith
    have h4 := ku_ge_one (k := 1) (b := b) zero_le_one hb'.le (by linarith) hz'
    have h5 := ku_ge_one (k := 1) (b := b + 1) zero_le_one (by linarith) (by linarith) hz'
    have h6 := mul_le_mul h3 h2 (by linarith) (by norm_num)
    linarith
  | succ n ih =>
    intro b hb h
    have hb' : (1:ℝ) < b := by exact_mod_cast hb
    have := ih (b + 1) (by linarith) (by push_cast at h; linarith)
    simp only [lgM]; push_cast at this ⊢
    rw [ku_one_rec hb' hz']
    have : 0 ≤ (z:ℝ) / b := div_nonneg hz' (by linarith)
    gcongr

theorem lgM_cells : lgM (11 / 16 + 10) 40 (1 / 2 + 1) ≤ 12000 ∧ lgM (73 / 64 + 10) 40 (11 / 16 + 1) ≤ 12000 ∧
    lgM (139 / 64 + 10) 40 (73 / 64 + 1) ≤ 12000 ∧ lgM (69 / 16 + 10) 40 (139 / 64 + 1) ≤ 12000 ∧
    lgM (33 / 4 + 10) 40 (69 / 16 + 1) ≤ 12000 ∧ lgM 20 40 (33 / 4 + 1) ≤ 12000 := by decide +kernel

theorem lgM_le {a z : ℝ} (a1 : 1 / 2 ≤ a) (a2 : a ≤ 10) (z0 : 0 ≤ z) (z1 : z ≤ a + 10) : ku 1 (a + 1) z ≤ 12000 := by
  obtain ⟨m1, m2, m3, m4, m5, m6⟩ := lgM_cells
  have key : ∀ p q : ℚ, 0 < p → p ≤ 9 → 0 ≤ q → q ≤ 20 → lgM q 40 (p + 1) ≤ 12000 → (p:ℝ) ≤ a → z ≤ (q:ℝ) → ku 1 (a + 1) z ≤ 12000 := by
    intro p q hp hp2 hq hq2 h h1 h2
    have k1 := lgM_ge hq 40 (p + 1) (by linarith) (by push_cast; linarith)
    have k2 := (Rat.cast_le (K := ℝ)).2 h
    push_cast at k1 k2
    have hp' : (0:ℝ) < p := by exact_mod_cast hp
    have k3 := ku_one_mono (b := p + 1) (b' := a + 1) (by linarith) (by linarith) z0 h2
    linarith
  rcases le_total a (11 / 16) with h | h1
  · exact key _ _ (by norm_num) (by norm_num) (by norm_num) (by norm_num) m1 (by push_cast; linarith) (by push_cast; linarith)
  rcases le_total a (73 / 64) with h | h2
  · exact key _ _ (by norm_num) (by norm_num) (by norm_num) (by norm_num) m2 (by push_cast; linarith) (by push_cast; linarith)
  rcases le_total a (139 / 64) with h | h3
  · exact key _ _ (by norm_num) (by norm_num) (by norm_num) (by norm_num) m3 (by push_cast; linarith) (by push_cast; linarith)
  rcases le_total a (69 / 16) with h | h4
  · exact key _ _ (by norm_num) (by norm_num) (by norm_num) (by norm_num) m4 (by push_cast; linarith) (by push_cast; linarith)
  rcases le_total a (33 / 4) with h | h5
  · exact key _ _ (by norm_num) (by norm_num) (by norm_num) (by norm_num) m5 (by push_cast; linarith) (by push_cast; linarith)
  · exact key _ _ (by norm_num) (by norm_num) (by norm_num) (by norm_num) m6 (by push_cast; linarith) (by push_cast; linarith)

/-! ### assembly -/

theorem lg_branch1 {a z : ℚ} {wa wz : Bool} (a1 : 1 / 2 ≤ a) (a2 : a < 10) (z0 : 1 / 2 ^ 100 ≤ z) (az : z ≤ a + 10 - 1 / 2 ^ 20) :
    incomplete_gamma (fin a wa : FV f) (fin z wz) = incomplete_gamma_cf_1 (fin a wa) (fin z wz) := by
  have hmna : ¬ ((limMin : FV f) > fin a wa) := by
    have h1 := minNormal_le' f
    unfold limMin; change ¬ (fin _ _ < fin _ _); simp; exact h1.trans (le_trans (by norm_num) a1)
  have hmnz : ¬ ((limMin : FV f) > fin z wz) := by
    have h1 := minNormal_le' f
    unfold limMin; change ¬ (fin _ _ < fin _ _); simp; exact h1.trans (le_trans (by norm_num) z0)
  obtain ⟨w0, e0⟩ := is_i (f := f) (n := 0) (by norm_num)
  obtain ⟨w10, e10⟩ := is_i (f := f) (n := 10) (by norm_num)
  norm_num at az
  obtain ⟨ws, es⟩ := (is_fin (f := f) z wz).sub (is_fin a wa) (nov (by
    rw [abs_le]; constructor <;> norm_num <;> linarith))
  have r10 : Rep f (10485759 / 1048576 : ℚ) :=
    (rep_mono_prec (f := f) (g := f) (q := 10485759 / 1048576) (m := 10485759) (e := -20) (by norm_num [pow2_eq]) (by norm_num) (by norm_num)).1
  have hr : rnd f (z - a) ≤ 10485759 / 1048576 := rnd_le_of_rep r10 (by linarith)
  unfold incomplete_gamma incomplete_gamma_check
  rw [if_neg (by simp [any_nan, is_nan]), if_neg (by rw [e0]; simp; linarith), if_neg hmnz, if_neg hmna,
    if_pos (by rw [es, e10]; simp; exact ⟨a2, by linarith⟩)]

/-- the quotient of the exponential and the continued fraction -/
theorem lg_final {u E T e τ r ε δ : ℝ} (hu : 0 < u) (hT : 0 < T) (hE : 0 < E)
    (he : |e - E| ≤ ε * E) (hτ : |τ - T| ≤ δ * T) (hε : ε ≤ 1 / 100) (hδ : δ ≤ 2240 / 10000) (hε0 : 0 ≤ ε) (hδ0 : 0 ≤ δ)
    (hr : |r - e / τ| ≤ u * |e / τ|) :
    |r - E / T| ≤ (1289 / 1000 * (ε + δ) + 14 / 10 * u) * (E / T) := by
  have t1 := abs_le.1 hτ
  have hδT : δ * T ≤ 2240 / 10000 * T := mul_le_mul_of_nonneg_right hδ hT.le
  have hτ0 : 7760 / 10000 * T ≤ τ := by linarith
  have hτp : 0 < τ := by linarith
  have key : |e / τ - E / T| ≤ 12887 / 10000 * (ε + δ) * (E / T) := by
    have : e / τ - E / T = ((e - E) - (τ - T) * (E / T)) / τ := by field_simp; ring
    rw [this, abs_div, abs_of_pos hτp, div_le_iff₀ hτp]
    have hQ0 : 0 < E / T := by positivity
    have h1 : |(τ - T) * (E / T)| ≤ δ * E := by
      rw [abs_mul, abs_of_pos hQ0]
      refine (mul_le_mul_of_nonneg_right hτ hQ0.le).trans (le_of_eq (by field_simp))
    have h2 := abs_sub (e - E) ((τ - T) * (E / T))
    have h3 : 12887 / 10000 * (ε + δ) * (E / T) * (7760 / 10000 * T) ≤ 12887 / 10000 * (ε + δ) * (E / T) * τ := by
      gcongr
    have h4 : 12887 / 10000 * (ε + δ) * (E / T) * (7760 / 10000 * T) = 12887 / 10000 * (ε + δ) * (7760 / 10000) * E := by
      field_simp
    have h5 := mul_nonneg hε0 hE.le
    have h6 := mul_nonneg hδ0 hE.le
    linarith
  have hQ0 : 0 ≤ E / T := by positivity
  generalize E / T = Q at *
  generalize e / τ = q at *
  have k0 : (ε + δ) * Q ≤ 2340 / 10000 * Q := mul_le_mul_of_nonneg_right (by linarith) hQ0
  have k1 : |q| ≤ |q - Q| + Q := by
    have := abs_sub_abs_le_abs_sub q Q
    rw [abs_of_nonneg hQ0] at this
    linarith
  have k2 : |q| ≤ 14 / 10 * Q := by linarith
  have k3 := mul_le_mul_of_nonneg_left k2 hu.le
  have k4 := abs_sub_le r q Q
  have k5 : 0 ≤ (ε + δ) * Q := by positivity
  linarith

/-- the exact value as a quotient, and bounds for the exponent -/
theorem lg_real {a z : ℝ} {c : ℕ} (hL : IgLow a z c) (a2 : a ≤ 10) (z0 : 1 / 2 ≤ z) :
    (∫ t in Set.Ioc 0 z, Real.exp (-t) * t ^ (a - 1)) / Real.Gamma a = Real.exp (a * Real.log z - z - Real.log (Real.Gamma a)) / KT a z 1 ∧
    |a * Real.log z - z - Real.log (Real.Gamma a)| ≤ 2 * (a * Real.log (a + z + 6)) + z ∧
    |a * Real.log z - z - Real.log (Real.Gamma a)| ≤ 83 ∧ -56 ≤ a * Real.log z - z - Real.log (Real.Gamma a) ∧
    a * |Real.log z| ≤ a * Real.log (a + z + 6) ∧ a * Real.log (a + 6) ≤ a * Real.log (a + z + 6) ∧
    a * Real.log (a + z + 6) ≤ 36 ∧ 155 / 100 ≤ Real.log (a + z + 6) := by
  have a1 := hL.a0'
  have z1 := hL.z1
  have ha := hL.ap
  have hz : 0 < z := by linarith
  have hG := log_gamma_abs_le a1
  have hΓ : 0 < Real.Gamma a := Real.Gamma_pos_of_pos ha
  have l2 := Real.log_two_lt_d9
  have hlz1 : -Real.log 2 ≤ Real.log z := by
    rw [← Real.log_inv]; exact Real.log_le_log (by norm_num) (by linarith)
  have hlz2 : Real.log z ≤ 5 * Real.log 2 := by
    rw [← Real.log_rpow (by norm_num)]; exact Real.log_le_log hz (by norm_num; linarith)
  have hl6 : Real.log (a + 6) ≤ 4 * Real.log 2 := by
    rw [← Real.log_rpow (by norm_num)]; exact Real.log_le_log (by linarith) (by norm_num; linarith)
  have hΛ : 155 / 100 ≤ Real.log (a + z + 6) := le_log_aux (by linarith)
  have hzΛ : |Real.log z| ≤ Real.log (a + z + 6) := by
    rw [abs_le]; constructor
    · linarith
    · exact Real.log_le_log hz (by linarith)
  have h6Λ : Real.log (a + 6) ≤ Real.log (a + z + 6) := Real.log_le_log (by linarith) (by linarith)
  have hΛ2 : Real.log (a + z + 6) ≤ 36 / 10 := by
    rw [Real.log_le_iff_le_exp (by linarith)]
    have e : Real.exp (36 / 10) = Real.exp (1 / 10) ^ 36 := by rw [← Real.exp_nat_mul]; norm_num
    have h5 := Real.quadratic_le_exp_of_nonneg (show (0:ℝ) ≤ 1 / 10 by norm_num)
    rw [e]
    have : (1 + 1 / 10 + (1 / 10) ^ 2 / 2 : ℝ) ^ 36 ≤ Real.exp (1 / 10) ^ 36 := pow_le_pow_left₀ (by norm_num) h5 36
    refine le_trans ?_ this
    norm_num
    linarith
  have b1 : a * |Real.log z| ≤ a * Real.log (a + z + 6) := mul_le_mul_of_nonneg_left hzΛ ha.le
  have b2 : a * Real.log (a + 6) ≤ a * Real.log (a + z + 6) := mul_le_mul_of_nonneg_left h6Λ ha.le
  have b3 : a * Real.log (a + z + 6) ≤ 10 * (36 / 10) := mul_le_mul a2 hΛ2 (by linarith) (by norm_num)
  have b4 : |a * Real.log z| = a * |Real.log z| := by rw [abs_mul, abs_of_pos ha]
  have c1 := abs_le.1 hG
  have c2 := abs_le.1 (le_of_eq b4)
  have c3 : a * Real.log (a + 6) ≤ 10 * (4 * Real.log 2) := mul_le_mul a2 hl6 (Real.log_nonneg (by linarith)) (by norm_num)
  have c4 : a * |Real.log z| ≤ 10 * (5 * Real.log 2) := by
    refine mul_le_mul a2 ?_ (abs_nonneg _) (by norm_num)
    rw [abs_le]; constructor <;> linarith [Real.log_nonneg (show (1:ℝ) ≤ 2 by norm_num)]
  have c5 : -(10 * Real.log 2) ≤ a * Real.log z := by
    have h1 := mul_le_mul_of_nonneg_left hlz1 ha.le
    have h2 := mul_le_mul_of_nonneg_right a2 (Real.log_nonneg (show (1:ℝ) ≤ 2 by norm_num))
    linarith
  refine ⟨?_, ?_, ?_, ?_, b1, b2, by linarith, hΛ⟩
  · rw [KT_one]
    have h := lo_eq ha hz
    have hM := ku_ge_one (k := 1) (b := a + 1) zero_le_one (by linarith) (by linarith) hL.zp
    unfold lo at h
    rw [show a * Real.log z - z - Real.log (Real.Gamma a) = Real.log z * a + -z - Real.log (Real.Gamma a) by ring,
      Real.exp_sub, Real.exp_add, Real.exp_log hΓ, ← Real.rpow_def_of_pos hz]
    generalize z ^ a = x at *
    generalize ku 1 (a + 1) z = M at *
    rw [div_div_eq_mul_div, div_mul_eq_mul_div, ← h]
    field_simp
  · rw [abs_le]; constructor <;> linarith
  · rw [abs_le]; constructor <;> linarith
  · linarith

theorem lg_eval {x y l lg t e r : FV f} (el : log y = .ok l) (eg : lgamma x = .ok lg) (et : x * l - y - lg = t) (ee : exp t = .ok e)
    (er : e / incomplete_gamma_cf_1_recur x y 1 = r) : incomplete_gamma_cf_1 x y = .ok r := by
  unfold incomplete_gamma_cf_1
  simp only [el, eg, bind, Except.bind, et, ee, er]

theorem lg_div {e τ : ℚ} {y : FV f} {E T ε δ : ℝ} (e0 : 0 < e) (iτ : Is y τ) (hT : 0 < T) (hE : 0 < E)
    (he : |(e:ℝ) - E| ≤ ε * E) (hτ : |(τ:ℝ) - T| ≤ δ * T) (hε : ε ≤ 1 / 100) (hδ : δ ≤ 2240 / 10000) (hε0 : 0 ≤ ε) (hδ0 : 0 ≤ δ)
    (hE2 : 1 / 2 ^ 103 ≤ E) (hE3 : E ≤ T) (hTu : T ≤ 10) :
    ∃ r w, (fin e false / y : FV f) = fin r w ∧ |(r:ℝ) - E / T| ≤ (1289 / 1000 * (ε + δ) + 14 / 10 * uro f) * (E / T) := by
  have hu := uro_pos_real f
  have h2 := mul_le_mul_of_nonneg_right hδ hT.le
  have hτ1 : 776 / 1000 * T ≤ (τ:ℝ) := by
    have := (abs_le.1 hτ).1
    linarith
  have hτ2 : (τ:ℝ) ≤ 1224 / 1000 * T := by
    have := (abs_le.1 hτ).2
    linarith
  have hτ0 : (0:ℝ) < τ := by linarith
  have e0' : (0:ℝ) < e := by exact_mod_cast e0
  obtain ⟨be1, be2⟩ := abs_le.1 he
  have hεE := mul_le_mul_of_nonneg_right hε hE.le
  have hq1 : |e / τ| ≤ 2 := by
    rw [← Rat.cast_le (K := ℝ)]; push_cast
    rw [abs_of_pos (div_pos e0' hτ0), div_le_iff₀ hτ0]
    linarith
  have hq2 : FV.minNormal f ≤ |e / τ| := by
    refine (minNormal_le' f).trans ?_
    rw [← Rat.cast_le (K := ℝ)]; push_cast
    rw [abs_of_pos (div_pos e0' hτ0), le_div_iff₀ hτ0]
    norm_num at hE2 ⊢
    linarith
  have eR := (Rat.cast_le (K := ℝ)).2 (rnd_err_rel hq2)
  push_cast at eR
  obtain ⟨w1, e1⟩ := (is_fin (f := f) e false).div iτ (by
    have : (0:ℚ) < τ := by exact_mod_cast hτ0
    exact this.ne') (nov (hq1.trans (by norm_num)))
  exact ⟨rnd f (e / τ), w1, e1, lg_final hu hT hE he hτ hε hδ hε0 hδ0 eR⟩

theorem exp_neg_56 : (1 / 2 ^ 82 : ℝ) ≤ Real.exp (-56) := by
  have h := Real.exp_one_lt_d9
  rw [Real.exp_neg, show (56:ℝ) = ((56:ℕ):ℝ) * 1 by norm_num, Real.exp_nat_mul, one_div]
  refine inv_anti₀ (by positivity) ?_
  have : Real.exp 1 ^ 56 ≤ (2719 / 1000 : ℝ) ^ 56 := pow_le_pow_left₀ (Real.exp_pos _).le (by norm_num at h; linarith) _
  refine this.trans (by norm_num)

/-- C79: in the region where `incomplete_gamma` uses the lower continued fraction, the result has a relative error
bounded by a multiple of the unit roundoff, the largest coefficient being that of
`a e^z z^(-a) ∫₀ᶻ t^(a-1) e^(-t) dt = 1 + z/(a+1) + z²/((a+1)(a+2)) + …`, which is between 1 and 12000 here -/
theorem C79_accuracy (hf : f.exact = false) (a z : ℚ) (wa wz : Bool) (ha : Valid (fin a wa : FV f)) (hz : Valid (fin z wz : FV f))
    (a1 : 1 / 2 ≤ a) (a2 : a < 10) (z0 : 1 / 2 ≤ z) (az : z ≤ a + 10 - 1 / 2 ^ 20) :
    ∃ r w, incomplete_gamma (fin a wa : FV f) (fin z wz) = .ok (fin r w) ∧
      |(r:ℝ) - (∫ t in Set.Ioc 0 (z:ℝ), Real.exp (-t) * t ^ ((a:ℝ) - 1)) / Real.Gamma a| ≤
        ((330 + 70 * (a * Real.log (a + z + 6)) + 10 * z
            + 410 * (a * Real.exp z * (z:ℝ) ^ (-(a:ℝ)) * ∫ t in Set.Ioc 0 (z:ℝ), Real.exp (-t) * t ^ ((a:ℝ) - 1))) / 2 ^ f.prec + 24 / 10 ^ 15) *
          ((∫ t in Set.Ioc 0 (z:ℝ), Real.exp (-t) * t ^ ((a:ℝ) - 1)) / Real.Gamma a) ∧
      1 ≤ a * Real.exp z * (z:ℝ) ^ (-(a:ℝ)) * (∫ t in Set.Ioc 0 (z:ℝ), Real.exp (-t) * t ^ ((a:ℝ) - 1)) ∧
      a * Real.exp z * (z:ℝ) ^ (-(a:ℝ)) * (∫ t in Set.Ioc 0 (z:ℝ), Real.exp (-t) * t ^ ((a:ℝ) - 1)) ≤ 12000 := by
  have hu := uro_pos_real f
  have hu7 := uro7_real f
  have a1' : (1 / 2 : ℝ) ≤ a := by have := (Rat.cast_le (K := ℝ)).2 a1; push_cast at this; exact this
  have a2' : (a:ℝ) < 10 := by exact_mod_cast a2
  have z0' : (1 / 2 : ℝ) ≤ z := by have := (Rat.cast_le (K := ℝ)).2 z0; push_cast at this; exact this
  have az' : (z:ℝ) ≤ a + 10 := by
    have := (Rat.cast_le (K := ℝ)).2 az; push_cast at this
    have h2 : (0:ℝ) < 1 / 2 ^ 20 := by positivity
    linarith
  have hL : IgLow a z ⌊(a:ℝ) - 1 / 2⌋₊ := by
    have h1 := Nat.floor_le (show (0:ℝ) ≤ (a:ℝ) - 1 / 2 by linarith)
    have h2 := Nat.lt_floor_add_one ((a:ℝ) - 1 / 2)
    refine ⟨?_, by linarith, by linarith, by linarith, az'⟩
    rw [Nat.floor_lt (by linarith)]; push_cast; linarith
  have hbr := lg_branch1 (f := f) (wa := wa) (wz := wz) a1 a2 (le_trans (by norm_num) z0) az
  have hM1 := ku_ge_one (k := 1) (b := (a:ℝ) + 1) zero_le_one (by linarith) (by linarith) hL.zp
  have hM2 := lgM_le a1' a2'.le hL.zp az'
  have hMeq : (a:ℝ) * Real.exp z * (z:ℝ) ^ (-(a:ℝ)) * (∫ t in Set.Ioc 0 (z:ℝ), Real.exp (-t) * t ^ ((a:ℝ) - 1)) = ku 1 (a + 1) z := by
    have h := lo_eq hL.ap (show (0:ℝ) < z by linarith)
    unfold lo at h
    have hx := Real.rpow_pos_of_pos (show (0:ℝ) < z by linarith) (a:ℝ)
    rw [Real.rpow_neg (by linarith)]
    rw [Real.exp_neg] at h
    have hez := Real.exp_pos (z:ℝ)
    generalize (∫ t in Set.Ioc 0 (z:ℝ), Real.exp (-t) * t ^ ((a:ℝ) - 1)) = I at *
    generalize (z:ℝ) ^ (a:ℝ) = x at *
    generalize Real.exp (z:ℝ) = y at *
    rw [show (a:ℝ) * y * x⁻¹ * I = y * x⁻¹ * (a * I) by ring, h]
    field_simp
  rw [hMeq]
  obtain ⟨hP, hv1, hv2, hv3, b1, b2, b3, b4⟩ := lg_real hL a2'.le z0'
  obtain ⟨v1, v2⟩ := abs_le.1 hv2
  have hem := expMin_ge f.ty
  have hem2 := (expMin_le f.ty).2
  have hD1 : igD f a z ≤ (113 + 439 / 10 * (a * Real.log (a + z + 6)) + 31 / 10 * z) * uro f + 18 / 10 ^ 15 := by
    unfold igD
    have h3 : (a:ℝ) * (155 / 100) ≤ a * Real.log (a + z + 6) := mul_le_mul_of_nonneg_left b4 (by linarith)
    have := mul_le_mul_of_nonneg_right (show 113 + 15 * (a:ℝ) + 91 / 10 * (a * |Real.log z|) + 31 / 10 * z + 251 / 10 * (a * Real.log (a + 6)) ≤
      113 + 439 / 10 * (a * Real.log (a + z + 6)) + 31 / 10 * z by linarith) hu.le
    linarith
  have hD2 : (113 + 439 / 10 * (a * Real.log (a + z + 6)) + 31 / 10 * z) * uro f + 18 / 10 ^ 15 ≤ 1 / 1000 := by
    have := mul_le_mul (show (113 + 439 / 10 * (a * Real.log (a + z + 6)) + 31 / 10 * z : ℝ) ≤ 1800 by linarith) hu7 hu.le (by norm_num)
    norm_num only at this ⊢
    linarith
  obtain ⟨l, lg, t, w, w', wt, el, eg, et, vt, bt⟩ := ig_expo hf ha hz a1 (by norm_num; linarith) z0
    (by norm_num at az ⊢; linarith) (hD1.trans hD2)
  obtain ⟨e, ee, e0, be⟩ := exp_of_lgamma hf vt (hD1.trans hD2) bt (by linarith) (by linarith)
  obtain ⟨τ, iτ, bτ⟩ := lg_cf_one (wz := wz) ha hL
  have hT := KT_pos hL.ap hL.zp (d := 1) le_rfl
  have hT1 := KT_one (a:ℝ) z
  rw [hP]
  have hv0 : 0 ≤ (a:ℝ) * Real.log (a + z + 6) := mul_nonneg hL.ap.le (by linarith)
  have hE := Real.exp_pos ((a:ℝ) * Real.log z - z - Real.log (Real.Gamma a))
  have hE2 : (1 / 2 ^ 82 : ℝ) ≤ Real.exp ((a:ℝ) * Real.log z - z - Real.log (Real.Gamma a)) :=
    exp_neg_56.trans (Real.exp_le_exp.2 hv3)
  have hE3 : Real.exp ((a:ℝ) * Real.log z - z - Real.log (Real.Gamma a)) ≤ KT a z 1 := by
    have hK := UG.K_pos hL.ap (show (0:ℝ) < z by linarith) 0
    have hc := UG.K_compl hL.ap (show (0:ℝ) < z by linarith)
    have hΓ : 0 < Real.Gamma (a:ℝ) := Real.Gamma_pos_of_pos hL.ap
    rw [← div_le_one hT, ← hP, div_le_one hΓ]
    linarith
  generalize (a:ℝ) * Real.log z - z - Real.log (Real.Gamma a) = v at *
  generalize (a:ℝ) * Real.log (a + z + 6) = y at *
  have be' : |(e:ℝ) - Real.exp v| ≤ ((2466 / 10 + 5204 / 100 * y + 713 / 100 * z) * uro f + 1804 / 10 ^ 17) * Real.exp v := by
    refine be.trans (mul_le_mul_of_nonneg_right ?_ hE.le)
    have h1 := mul_le_mul_of_nonneg_right hv1 hu.le
    have h2 := mul_nonneg hv0 hu.le
    have h3 : 0 ≤ (z:ℝ) * uro f := mul_nonneg (by linarith) hu.le
    norm_num only at hD1 ⊢
    linarith
  have hε : (2466 / 10 + 5204 / 100 * y + 713 / 100 * z) * uro f + 1804 / 10 ^ 17 ≤ (1 / 100 : ℝ) := by
    have := mul_le_mul (show (2466 / 10 + 5204 / 100 * y + 713 / 100 * z : ℝ) ≤ 3000 by linarith) hu7 hu.le (by norm_num)
    norm_num only at this ⊢
    linarith
  have hu24 : (uro f : ℝ) ≤ 1 / 2 ^ 24 := by
    rw [uro_eq]
    have := two_pow_prec f
    have h2 : (16777216:ℝ) ≤ 2 ^ f.prec := by exact_mod_cast this
    exact one_div_le_one_div_of_le (by norm_num) (by norm_num; linarith)
  have hδ : (312 * uro f + 2 / 10 ^ 20) * ku 1 (a + 1) z ≤ (2240 / 10000 : ℝ) := by
    have := mul_le_mul (show (312 * uro f + 2 / 10 ^ 20 : ℝ) ≤ 312 * (1 / 2 ^ 24) + 2 / 10 ^ 20 by linarith) hM2 (by linarith) (by norm_num)
    refine this.trans (by norm_num)
  have hTu : KT a z 1 ≤ 10 := by
    rw [hT1, div_le_iff₀ (by linarith)]; linarith
  obtain ⟨r, w1, e1, hfin⟩ := lg_div e0 iτ hT hE be' bτ hε hδ (by
      have : (0:ℝ) ≤ z := by linarith
      positivity) (by
      have : (0:ℝ) ≤ ku 1 (a + 1) z := by linarith
      positivity) (le_trans (by norm_num) hE2) hE3 hTu
  refine ⟨r, w1, ?_, hfin.trans (mul_le_mul_of_nonneg_right ?_ (div_pos hE hT).le), hM1, hM2⟩
  · rw [hbr]
    exact lg_eval el eg et ee e1
  · rw [div_eq_mul_one_div _ ((2:ℝ) ^ f.prec), ← uro_eq]
    generalize ku 1 ((a:ℝ) + 1) z = M at *
    have h1 := mul_nonneg hv0 hu.le
    have h2 : 0 ≤ (z:ℝ) * uro f := mul_nonneg (by linarith) hu.le
    have h3 : 0 ≤ M * uro f := mul_nonneg (by linarith) hu.le
    norm_num only
    linarith

/-- `P(3, 5)` in double: the exact value is `1 - 37/2 e^(-5)` -/
example : ∃ r w, incomplete_gamma (fin 3 false : FV binary64) (fin 5 false) = .ok (fin r w) ∧
    |(r:ℝ) - (∫ t in Set.Ioc 0 ((5:ℚ):ℝ), Real.exp (-t) * t ^ (((3:ℚ):ℝ) - 1)) / Real.Gamma ((3:ℚ):ℝ)| ≤
      ((330 + 70 * ((3:ℚ) * Real.log ((3:ℚ) + (5:ℚ) + 6)) + 10 * (5:ℚ) + 410 * 12000) / 2 ^ 53 + 24 / 10 ^ 15) *
        ((∫ t in Set.Ioc 0 ((5:ℚ):ℝ), Real.exp (-t) * t ^ (((3:ℚ):ℝ) - 1)) / Real.Gamma ((3:ℚ):ℝ)) := by
  obtain ⟨r, w, h, hb, h1, h2⟩ := C79_accuracy (f := binary64) rfl 3 5 false false (by decide +kernel) (by decide +kernel)
    (by norm_num) (by norm_num) (by norm_num) (by norm_num)
  refine ⟨r, w, h, hb.trans (mul_le_mul_of_nonneg_right ?_ ?_)⟩
  · have : (binary64.prec : ℕ) = 53 := rfl
    rw [this]
    gcongr
  · refine div_nonneg (MeasureTheory.setIntegral_nonneg measurableSet_Ioc fun x hx => ?_) (Real.Gamma_pos_of_pos (by norm_num)).le
    exact mul_nonneg (Real.exp_pos _).le (Real.rpow_nonneg hx.1.le _)

end Gcem.Props
