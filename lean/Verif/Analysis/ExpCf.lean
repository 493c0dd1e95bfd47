import Verif.Fp.Err
import Verif.Model.Elem

/-!
# The continued fraction of `exp`: exact values and rounding error

`expR x k` is the exact value of the loop variable of exp.hpp:38-51 after `k` iterations, i.e. at
`depth = 25 - k`.
-/

namespace Gcem
open FV
variable {f : Fmt}

def expR (x : ℚ) : ℕ → ℚ
  | 0 => 1
  | k + 1 => 1 + x / (23 - k) - x / (24 - k) / expR x k

/-- exact value of `exp_cf` -/
def expCf (x : ℚ) : ℚ := 1 / (1 - x / expR x 23)

/-! ## One step in floating point -/

theorem exp_step_err {x r : ℚ} {d : ℕ} {v : FV f} {z : Bool} (hd : 2 ≤ d) (hd' : d ≤ 24)
    {ρ e B1 B2 B3 B4 B5 C4 e' : ℚ} (hv : Ap v r e) (hρ : 0 < ρ) (hr : ρ + e / 10 ^ 7 ≤ r)
    (h1 : |x / ((d : ℚ) - 1)| ≤ B1) (h2 : |1 + x / ((d : ℚ) - 1)| ≤ B2)
    (h3 : |x / (d : ℚ)| ≤ B3) (h4 : |x / (d : ℚ) / r| ≤ B4)
    (h5 : |1 + x / ((d : ℚ) - 1) - x / (d : ℚ) / r| ≤ B5)
    (h1' : 1 / 100 ≤ B1 ∧ B1 ≤ 1000) (h2' : 1 / 100 ≤ B2 ∧ B2 ≤ 1000) (h3' : 1 / 100 ≤ B3 ∧ B3 ≤ 1000)
    (h4' : 1 / 100 ≤ B4 ∧ B4 ≤ 1000) (h5' : 1 / 100 ≤ B5 ∧ B5 ≤ 1000) (hC : (B3 + B4 * e) / ρ ≤ C4)
    (hC' : C4 ≤ 1000)
    (he' : B1 + B2 + C4 + B4 + B5 + 1 / 1000 ≤ e') :
    Ap (exp_cf_step (fin x z) d v) (1 + x / ((d : ℚ) - 1) - x / (d : ℚ) / r) e' := by
  have hd0 : (2 : ℚ) ≤ d := by exact_mod_cast hd
  have i1 : Is (i ((d : ℤ) - 1) : FV f) ((d : ℚ) - 1) := by
    have := is_i (f := f) (n := (d : ℤ) - 1) (by rw [abs_le]; constructor <;> omega)
    push_cast at this; exact this
  have i3 : Is (i (d : ℤ) : FV f) (d : ℚ) := by
    have := is_i (f := f) (n := (d : ℤ)) (by rw [abs_le]; constructor <;> omega)
    push_cast at this; exact this
  have o1 : Is (i 1 : FV f) 1 := by simpa using is_i (f := f) (n := 1) (by norm_num)
  have hx := (is_fin (f := f) x z).ap
  have n := hv.nonneg
  have s1 : Ap (fin x z / i ((d : ℤ) - 1) : FV f) (x / ((d : ℚ) - 1)) B1 :=
    hx.div i1.ap (ρ := 1) (C := 0) (by norm_num) (by rw [abs_of_pos (by linarith)]; linarith) h1
      (by linarith) (by linarith) (by simp) (by norm_num) (by simp)
  have s2 : Ap (i 1 + fin x z / i ((d : ℤ) - 1) : FV f) (1 + x / ((d : ℚ) - 1)) (B1 + B2 + 1 / 9999) :=
    o1.ap.add s1 h2 (by linarith) (by linarith) (by linarith) (by linarith)
  have s3 : Ap (fin x z / i (d : ℤ) : FV f) (x / (d : ℚ)) B3 :=
    hx.div i3.ap (ρ := 1) (C := 0) (by norm_num) (by rw [abs_of_pos (by linarith)]; linarith) h3
      (by linarith) (by linarith) (by simp) (by norm_num) (by simp)
  have C0 : 0 ≤ C4 := le_trans (div_nonneg (add_nonneg (by linarith) (mul_nonneg (by linarith) n)) hρ.le) hC
  have s4 : Ap (fin x z / i (d : ℤ) / v : FV f) (x / (d : ℚ) / r) (C4 + B4 + 1 / 9999) :=
    s3.div hv (C := C4) hρ (hr.trans (le_abs_self r)) h4 (by linarith) (by linarith) hC
      (by linarith) (by linarith)
  exact s2.sub s4 h5 (by linarith) (by linarith) (by linarith) (by linarith)

/-! ## Exact values, `x ≥ 0` -/

theorem expR_pos {x : ℚ} (hx : 0 ≤ x) : ∀ k : ℕ, k ≤ 23 →
    1 ≤ expR x k ∧ expR x k ≤ 1 + x / (24 - k)
  | 0, _ => by simp [expR]; positivity
  | k + 1, hk => by
    obtain ⟨h1, -⟩ := expR_pos hx k (by omega)
    have hk' : (k : ℚ) ≤ 22 := by exact_mod_cast (by omega : k ≤ 22)
    have p : 0 ≤ x / (24 - k) := div_nonneg hx (by linarith)
    have a : x / (24 - k) / expR x k ≤ x / (24 - k) := div_le_self p h1
    have b : x / (24 - k) ≤ x / (23 - k) := div_le_div_of_nonneg_left hx (by linarith) (by linarith)
    have c : 0 ≤ x / (24 - k) / expR x k := div_nonneg p (by linarith)
    rw [expR]; push_cast
    rw [show (24 : ℚ) - (k + 1) = 23 - k by ring]
    constructor <;> linarith

/-! ## Exact values, `x ≤ 0` -/

theorem expR_neg {x : ℚ} (hx : x ≤ 0) (hx2 : -2 ≤ x) : ∀ k : ℕ, k ≤ 22 →
    1 + x / ((24 - k) * (25 - k)) ≤ expR x k ∧ expR x k ≤ 1
  | 0, _ => by simp [expR]; linarith
  | k + 1, hk => by
    obtain ⟨h1, h2⟩ := expR_neg hx hx2 k (by omega)
    have hk' : (k : ℚ) ≤ 21 := by exact_mod_cast (by omega : k ≤ 21)
    have k1 : (2:ℚ) ≤ 23 - k := by linarith
    have k2 : (3:ℚ) ≤ 24 - k := by linarith
    have k3 : (4:ℚ) ≤ 25 - k := by linarith
    have h0 : 0 < expR x k := by
      have : -1 / 2 ≤ x / ((24 - k) * (25 - k)) := by
        rw [le_div_iff₀ (by positivity)]; nlinarith
      linarith
    have a : x / (24 - k) / expR x k ≤ x / (24 - k) := by
      rw [div_le_iff₀ h0]
      have : x / (24 - k) ≤ 0 := div_nonpos_of_nonpos_of_nonneg hx (by linarith)
      nlinarith
    have b : x / ((23 - k) * (24 - k)) = x / (23 - k) - x / (24 - k) := by field_simp; ring
    rw [expR]; push_cast
    rw [show (24 : ℚ) - (k + 1) = 23 - k by ring, show (25 : ℚ) - (k + 1) = 24 - k by ring, b]
    refine ⟨by linarith, ?_⟩
    have c : x / (23 - k) ≤ x / (24 - k) / expR x k := by
      rw [le_div_iff₀ h0]
      have m : x / (23 - k) * expR x k ≤ x / (23 - k) * (1 + x / ((24 - k) * (25 - k))) :=
        mul_le_mul_of_nonpos_left h1 (div_nonpos_of_nonpos_of_nonneg hx (by linarith))
      refine m.trans ?_
      rw [div_mul_eq_mul_div, div_le_div_iff₀ (by linarith) (by linarith), mul_assoc]
      refine mul_le_mul_of_nonpos_left ?_ hx
      have : -1 / (24 - k) ≤ x / ((24 - k) * (25 - k)) := by
        rw [div_le_div_iff₀ (by linarith) (by positivity)]; nlinarith
      have e : (-1 / (24 - k)) * (24 - k) = (-1 : ℚ) := by field_simp
      nlinarith
    linarith

theorem expR_21 (x : ℚ) : expR x 21 = 1 + x / 3 - x / 4 / expR x 20 := by
  rw [show 21 = 20 + 1 from rfl, expR]; norm_num
theorem expR_22 (x : ℚ) : expR x 22 = 1 + x / 2 - x / 3 / expR x 21 := by
  rw [show 22 = 21 + 1 from rfl, expR]; norm_num
theorem expR_23 (x : ℚ) : expR x 23 = 1 + x - x / 2 / expR x 22 := by
  rw [show 23 = 22 + 1 from rfl, expR]; norm_num

theorem expR_neg_22 {x : ℚ} (hx : x ≤ 0) (hx2 : -2 ≤ x) :
    3 / 4 ≤ expR x 22 ∧ expR x 22 ≤ 1 + x / 10 := by
  have h20 := (expR_neg hx hx2 20 (by norm_num)).1
  norm_num at h20
  have h21 := (expR_neg hx hx2 21 (by norm_num)).1
  norm_num at h21
  have p20 : 0 < expR x 20 := by linarith
  have p21 : 0 < expR x 21 := by linarith
  have u21 : expR x 21 ≤ 1 + x / 18 := by
    rw [expR_21]
    have : x * (5 / 18) ≤ x / 4 / expR x 20 := by
      rw [le_div_iff₀ p20]; nlinarith
    linarith
  rw [expR_22]
  constructor
  · have : x / 3 / expR x 21 ≤ x / 3 / (1 + x / 18) := by
      rw [div_le_div_iff₀ p21 (by linarith)]; nlinarith
    have h2 : x / 3 / (1 + x / 18) ≤ x / 2 + 1 / 4 := by
      rw [div_le_iff₀ (by linarith)]; nlinarith
    linarith
  · have : x * (2 / 5) ≤ x / 3 / expR x 21 := by
      rw [le_div_iff₀ p21]; nlinarith
    linarith

theorem expR_neg_23 {x : ℚ} (hx : x ≤ 0) (hx2 : -2 ≤ x) :
    1 / 4 ≤ expR x 23 ∧ expR x 23 ≤ 1 := by
  obtain ⟨l, u⟩ := expR_neg_22 hx hx2
  have p : 0 < expR x 22 := by linarith
  rw [expR_23]
  constructor
  · have : x / 2 / expR x 22 ≤ x + 3 / 4 := by
      rw [div_le_iff₀ p]
      have q : (0:ℚ) < 1 + x / 10 := by linarith
      rcases le_total (x + 3 / 4) 0 with h | h
      · nlinarith
      · nlinarith
    linarith
  · have : x ≤ x / 2 / expR x 22 := by
      rw [le_div_iff₀ p]; nlinarith
    linarith

theorem expR_pos_23 {x : ℚ} (hx : 0 ≤ x) (hx2 : x ≤ 2) :
    1 / 4 ≤ expR x 23 - x ∧ 1 ≤ expR x 23 ∧ expR x 23 ≤ 3 := by
  have h21 := (expR_pos hx 21 (by norm_num)).1
  have h23 := expR_pos hx 23 (by norm_num)
  norm_num at h23
  refine ⟨?_, h23.1, by linarith [h23.2]⟩
  have l : 1 + x / 6 ≤ expR x 22 := by
    rw [expR_22]
    have : x / 3 / expR x 21 ≤ x / 3 := div_le_self (by positivity) h21
    linarith
  rw [expR_23]
  have : x / 2 / expR x 22 ≤ 3 / 4 := by
    rw [div_le_iff₀ (by linarith)]; linarith
  linarith

/-! ## The loop -/

theorem exp_loop_split (x : FV f) : exp_cf_recur x 2
    = exp_cf_step x 2 (exp_cf_step x 3 (exp_cf_step x 4 (exp_cf_step x 5
        (whileDown (exp_cf_step x) 5 24 (i 1))))) := by
  unfold exp_cf_recur EXP_MAX_ITER_SMALL
  rw [whileDown_split _ (2 - 1) 5 (by norm_num) _ _ (by norm_num)]
  rw [whileDown_split _ (2 - 1) 4 (by norm_num) 5 _ (by norm_num), whileDown_one,
    whileDown_split _ (2 - 1) 3 (by norm_num) 4 _ (by norm_num), whileDown_one,
    whileDown_split _ (2 - 1) 2 (by norm_num) 3 _ (by norm_num), whileDown_one,
    show (2 - 1 : ℕ) = 1 from rfl, whileDown_one]

theorem exp_loop_neg {x : ℚ} {z : Bool} (hx : x ≤ 0) (hx2 : -2 ≤ x) :
    Ap (exp_cf_recur (fin x z : FV f) 2) (expR x 23) (274 / 10) := by
  have key : ∀ (d : ℕ) (v : FV f) (e ρ B1 B3 B4 C4 e' : ℚ), 2 ≤ d → d ≤ 24 →
      Ap v (expR x (24 - d)) e → 0 < ρ → ρ + e / 10 ^ 7 ≤ expR x (24 - d) →
      2 / ((d : ℚ) - 1) ≤ B1 → 2 / (d : ℚ) ≤ B3 → B3 / ρ ≤ B4 →
      1 / 100 ≤ B1 ∧ B1 ≤ 1000 → 1 / 100 ≤ B3 ∧ B3 ≤ 1000 → 1 / 100 ≤ B4 ∧ B4 ≤ 1000 →
      |expR x (24 - d + 1)| ≤ 1 →
      (B3 + B4 * e) / ρ ≤ C4 → C4 ≤ 1000 → B1 + 1 + C4 + B4 + 1 + 1 / 1000 ≤ e' →
      Ap (exp_cf_step (fin x z) d v) (expR x (24 - d + 1)) e' := by
    intro d v e ρ B1 B3 B4 C4 e' hd hd' hv hρ hr h1 h3 h4 b1 b3 b4 h5 hC hC' he
    have n := hv.nonneg
    have hd0 : (2 : ℚ) ≤ d := by exact_mod_cast hd
    have c1 : (23 : ℚ) - (24 - d : ℕ) = d - 1 := by rw [Nat.cast_sub hd']; push_cast; ring
    have c2 : (24 : ℚ) - (24 - d : ℕ) = d := by rw [Nat.cast_sub hd']; push_cast; ring
    have hR : expR x (24 - d + 1) = 1 + x / ((d:ℚ) - 1) - x / (d:ℚ) / expR x (24 - d) := by
      rw [expR, c1, c2]
    rw [hR] at h5 ⊢
    have r0 : ρ ≤ expR x (24 - d) := le_trans (by have : 0 ≤ e / 10 ^ 7 := by positivity
                                                  linarith) hr
    have ax : |x| ≤ 2 := by rw [abs_le]; constructor <;> linarith
    have k1 : |x / ((d : ℚ) - 1)| ≤ B1 := by
      rw [abs_div, abs_of_pos (show (0:ℚ) < d - 1 by linarith)]
      exact (div_le_div_of_nonneg_right ax (by linarith)).trans h1
    have k3 : |x / (d : ℚ)| ≤ B3 := by
      rw [abs_div, abs_of_pos (show (0:ℚ) < d by linarith)]
      exact (div_le_div_of_nonneg_right ax (by linarith)).trans h3
    refine exp_step_err hd hd' hv hρ hr k1 ?_ k3 ?_ h5 b1 (B2 := 1) (by norm_num) b3 b4
      (by norm_num) hC hC' he
    · have m : x / ((d : ℚ) - 1) ≤ 0 := div_nonpos_of_nonpos_of_nonneg hx (by linarith)
      have l : -2 ≤ x / ((d : ℚ) - 1) := by rw [le_div_iff₀ (by linarith)]; nlinarith
      rw [abs_le]; constructor <;> linarith
    · rw [abs_div, abs_of_pos (show 0 < expR x (24 - d) by linarith)]
      exact (div_le_div₀ (by linarith) k3 hρ r0).trans h4
  have bd : ∀ k, k ≤ 22 → |expR x k| ≤ 1 := by
    intro k hk
    obtain ⟨l, u⟩ := expR_neg hx hx2 k hk
    have hk' : (k : ℚ) ≤ 22 := by exact_mod_cast hk
    have : -1 / 2 ≤ x / ((24 - k) * (25 - k)) := by
      rw [le_div_iff₀ (mul_pos (by linarith) (by linarith))]; nlinarith
    rw [abs_le]; constructor <;> linarith
  have lo : ∀ k : ℕ, k ≤ 22 → 1 - 2 / ((24 - (k:ℚ)) * (25 - k)) ≤ expR x k := by
    intro k hk
    obtain ⟨l, -⟩ := expR_neg hx hx2 k hk
    have hk' : (k : ℚ) ≤ 22 := by exact_mod_cast hk
    have : -(2 / ((24 - (k:ℚ)) * (25 - k))) ≤ x / ((24 - k) * (25 - k)) := by
      rw [← neg_div]
      exact div_le_div_of_nonneg_right hx2 (mul_nonneg (by linarith) (by linarith))
    linarith
  have s5 : Ap (whileDown (exp_cf_step (fin x z : FV f)) 5 24 (i 1)) (expR x (24 - 5)) 5 := by
    refine (whileDown_inv _ 5 (fun d v => d ≤ 24 ∧ Ap v (expR x (24 - d)) 5) ?_ 24 (i 1) (by norm_num) ?_).2
    · rintro d v hd ⟨hd', hv⟩
      refine ⟨by omega, ?_⟩
      have e1 : 24 - (d + 1) + 1 = 24 - d := by omega
      have hdq : (5 : ℚ) ≤ d := by exact_mod_cast hd
      have := key (d + 1) v 5 (95 / 100) (2 / 5) (1 / 3) (351 / 1000) (22 / 10) 5 (by omega) hd' hv
        (by norm_num) ?_ ?_ ?_ (by norm_num) (by norm_num) (by norm_num) (by norm_num)
        (bd _ (by omega)) (by norm_num) (by norm_num) (by norm_num)
      · rw [e1] at this; exact this
      · refine le_trans ?_ (lo _ (by omega))
        rw [Nat.cast_sub hd']; push_cast
        have : 2 / ((24 - (24 - ((d:ℚ) + 1))) * (25 - (24 - (d + 1)))) ≤ 1 / 21 := by
          rw [div_le_div_iff₀ (by nlinarith) (by norm_num)]; nlinarith
        linarith
      · push_cast; rw [add_sub_cancel_right, div_le_div_iff₀ (by linarith) (by norm_num)]; linarith
      · push_cast; rw [div_le_div_iff₀ (by linarith) (by norm_num)]; linarith
    · have o1 : Is (i 1 : FV f) 1 := by simpa using is_i (f := f) (n := 1) (by norm_num)
      exact ⟨le_refl _, o1.ap.mono (by norm_num)⟩
  have l5 := lo 19 (by norm_num)
  have l4 := lo 20 (by norm_num)
  have l3 := lo 21 (by norm_num)
  have l2 := (expR_neg_22 hx hx2).1
  norm_num at l5 l4 l3
  have s4 := key 5 _ 5 (93 / 100) (1 / 2) (2 / 5) (431 / 1000) (275 / 100) (57 / 10) (by norm_num) (by norm_num) s5
    (by norm_num) (by norm_num; linarith) (by norm_num) (by norm_num) (by norm_num) (by norm_num) (by norm_num)
    (by norm_num) (bd _ (by norm_num)) (by norm_num) (by norm_num) (by norm_num)
  have s3 := key 4 _ (57 / 10) (8999 / 10000) (2 / 3) (1 / 2) (556 / 1000) (408 / 100) (731 / 100) (by norm_num) (by norm_num) s4
    (by norm_num) (by norm_num; linarith) (by norm_num) (by norm_num) (by norm_num) (by norm_num) (by norm_num)
    (by norm_num) (bd _ (by norm_num)) (by norm_num) (by norm_num) (by norm_num)
  have s2 := key 3 _ (731 / 100) (8333 / 10000) 1 (2 / 3) (801 / 1000) (784 / 100) (1165 / 100) (by norm_num) (by norm_num) s3
    (by norm_num) (by norm_num; linarith) (by norm_num) (by norm_num) (by norm_num) (by norm_num) (by norm_num)
    (by norm_num) (bd _ (by norm_num)) (by norm_num) (by norm_num) (by norm_num)
  have l1 := expR_neg_23 hx hx2
  have s1 := key 2 _ (1165 / 100) (74999 / 100000) 2 1 (13334 / 10000) (2205 / 100) (274 / 10) (by norm_num) (by norm_num) s2
    (by norm_num) (by norm_num; linarith) (by norm_num) (by norm_num) (by norm_num) (by norm_num) (by norm_num)
    (by norm_num) (by norm_num; rw [abs_le]; constructor <;> linarith [l1.1, l1.2]) (by norm_num) (by norm_num) (by norm_num)
  rw [exp_loop_split]
  exact s1

theorem exp_loop_pos {x : ℚ} {z : Bool} (hx : 0 ≤ x) (hx2 : x ≤ 2) :
    Ap (exp_cf_recur (fin x z : FV f) 2) (expR x 23) 22 := by
  have key : ∀ (d : ℕ) (v : FV f) (e B1 B3 e' : ℚ), 2 ≤ d → d ≤ 24 →
      Ap v (expR x (24 - d)) e → e ≤ 100 →
      2 / ((d : ℚ) - 1) ≤ B1 → 2 / (d : ℚ) ≤ B3 →
      1 / 100 ≤ B1 ∧ B1 ≤ 2 → 1 / 100 ≤ B3 ∧ B3 ≤ 1 →
      2 + 3 * B1 + 10001 / 10000 * (B3 + B3 * e) + B3 + 1 / 1000 ≤ e' →
      Ap (exp_cf_step (fin x z) d v) (expR x (24 - d + 1)) e' := by
    intro d v e B1 B3 e' hd hd' hv he h1 h3 b1 b3 he'
    have n := hv.nonneg
    have hd0 : (2 : ℚ) ≤ d := by exact_mod_cast hd
    have c1 : (23 : ℚ) - (24 - d : ℕ) = d - 1 := by rw [Nat.cast_sub hd']; push_cast; ring
    have c2 : (24 : ℚ) - (24 - d : ℕ) = d := by rw [Nat.cast_sub hd']; push_cast; ring
    have hR : expR x (24 - d + 1) = 1 + x / ((d:ℚ) - 1) - x / (d:ℚ) / expR x (24 - d) := by
      rw [expR, c1, c2]
    obtain ⟨l5, u5⟩ := expR_pos hx (24 - d + 1) (by omega)
    have c3 : (24 : ℚ) - (24 - d + 1 : ℕ) = d - 1 := by push_cast [Nat.cast_sub hd']; ring
    rw [c3] at u5
    rw [hR] at l5 u5 ⊢
    have r0 := (expR_pos hx (24 - d) (by omega)).1
    have p1 : 0 ≤ x / ((d : ℚ) - 1) := div_nonneg hx (by linarith)
    have p3 : 0 ≤ x / (d : ℚ) := div_nonneg hx (by linarith)
    have k1 : x / ((d : ℚ) - 1) ≤ B1 := (div_le_div_of_nonneg_right hx2 (by linarith)).trans h1
    have k3 : x / (d : ℚ) ≤ B3 := (div_le_div_of_nonneg_right hx2 (by linarith)).trans h3
    have k4 : x / (d : ℚ) / expR x (24 - d) ≤ x / (d : ℚ) := div_le_self p3 r0
    have k4' : 0 ≤ x / (d : ℚ) / expR x (24 - d) := div_nonneg p3 (by linarith)
    refine exp_step_err (ρ := 99998 / 100000) (B1 := B1) (B2 := 1 + B1) (B3 := B3) (B4 := B3) (B5 := 1 + B1)
      (C4 := 10001 / 10000 * (B3 + B3 * e)) hd hd' hv (by norm_num)
      (by have : e / 10 ^ 7 ≤ 1 / 100000 := by rw [div_le_iff₀ (by norm_num)]; norm_num; exact he
          linarith) ?_ ?_ ?_ ?_ ?_ (by constructor <;> linarith) (by constructor <;> linarith)
      (by constructor <;> linarith) (by constructor <;> linarith) (by constructor <;> linarith) ?_ ?_ ?_
    · rw [abs_of_nonneg p1]; exact k1
    · rw [abs_of_nonneg (by linarith)]; linarith
    · rw [abs_of_nonneg p3]; exact k3
    · rw [abs_of_nonneg k4']; linarith
    · rw [abs_of_nonneg (by linarith)]; linarith
    · rw [div_le_iff₀ (by norm_num)]
      have : 0 ≤ B3 * e := by have : 0 ≤ B3 := by linarith
                              positivity
      linarith
    · have : B3 * e ≤ 1 * 100 := mul_le_mul (by linarith) he n (by norm_num)
      linarith
    · linarith
  have s5 : Ap (whileDown (exp_cf_step (fin x z : FV f)) 5 24 (i 1)) (expR x (24 - 5)) (582 / 100) := by
    refine (whileDown_inv _ 5 (fun d v => d ≤ 24 ∧ Ap v (expR x (24 - d)) (582 / 100)) ?_ 24 (i 1) (by norm_num) ?_).2
    · rintro d v hd ⟨hd', hv⟩
      refine ⟨by omega, ?_⟩
      have e1 : 24 - (d + 1) + 1 = 24 - d := by omega
      have hdq : (5 : ℚ) ≤ d := by exact_mod_cast hd
      have := key (d + 1) v (582 / 100) (2 / 5) (1 / 3) (582 / 100) (by omega) hd' hv
        (by norm_num) ?_ ?_ (by norm_num) (by norm_num) (by norm_num)
      · rw [e1] at this; exact this
      · push_cast; rw [add_sub_cancel_right, div_le_div_iff₀ (by linarith) (by norm_num)]; linarith
      · push_cast; rw [div_le_div_iff₀ (by linarith) (by norm_num)]; linarith
    · have o1 : Is (i 1 : FV f) 1 := by simpa using is_i (f := f) (n := 1) (by norm_num)
      exact ⟨le_refl _, o1.ap.mono (by norm_num)⟩
  have s4 := key 5 _ _ (1 / 2) (2 / 5) (664 / 100) (by norm_num) (by norm_num) s5
    (by norm_num) (by norm_num) (by norm_num) (by norm_num) (by norm_num) (by norm_num)
  have s3 := key 4 _ _ (2 / 3) (1 / 2) (833 / 100) (by norm_num) (by norm_num) s4
    (by norm_num) (by norm_num) (by norm_num) (by norm_num) (by norm_num) (by norm_num)
  have s2 := key 3 _ _ 1 (2 / 3) (119 / 10) (by norm_num) (by norm_num) s3
    (by norm_num) (by norm_num) (by norm_num) (by norm_num) (by norm_num) (by norm_num)
  have s1 := key 2 _ _ 2 1 22 (by norm_num) (by norm_num) s2
    (by norm_num) (by norm_num) (by norm_num) (by norm_num) (by norm_num) (by norm_num)
  rw [exp_loop_split]
  exact s1

/-- the last three operations of `exp_cf`, with error relative to the result -/
theorem exp_cf_finish {v : FV f} {x r e G : ℚ} {z : Bool} (hv : Ap v r e) (hr : 1 / 4 ≤ r)
    (he : e ≤ 30) (hx : |x| ≤ 2) (hD : 1 / 13 ≤ 1 - x / r)
    (hG : (|x| / r) * (e / r + 1) + 1 / 20 ≤ G * (1 - x / r)) (hG' : G ≤ 985 / 10) :
    Ap (i 1 / (i 1 - fin x z / v)) (1 / (1 - x / r)) (101 / (1 - x / r)) := by
  have n := hv.nonneg
  have r0 : 0 < r := by linarith
  have o1 : Is (i 1 : FV f) 1 := by simpa using is_i (f := f) (n := 1) (by norm_num)
  set D := 1 - x / r with hDd
  set B := |x| / r with hB
  have B0 : 0 ≤ B := by positivity
  have B8 : B ≤ 8 := by rw [hB, div_le_iff₀ r0]; linarith
  have D9 : D ≤ 9 := by
    have : -B ≤ x / r := by rw [hB, ← neg_div]; exact div_le_div_of_nonneg_right (neg_abs_le x) r0.le
    linarith
  have abs1 : |x / r| = B := by rw [abs_div, abs_of_pos r0]
  have er : e / r ≤ 120 := by rw [div_le_iff₀ r0]; linarith
  have er0 : 0 ≤ e / r := by positivity
  have BG : B * (e / r) + B + 1 / 20 ≤ G * D := by linarith
  have BE : B * (e / r) ≤ 8 * 120 := mul_le_mul B8 er er0 (by norm_num)
  have s1 : Ap (fin x z / v : FV f) (x / r) (B * (e / r) + B + 1 / 25) := by
    refine (is_fin (f := f) x z).ap.div hv (ρ := r * 99998 / 100000) (B := B + 1 / 1000000)
      (C := B * (e / r) + 1 / 30) (by positivity) ?_ (by rw [abs1]; linarith) (by linarith) (by linarith) ?_ ?_ ?_
    · rw [abs_of_pos r0]
      have : e / 10 ^ 7 ≤ 1 / 300000 := by rw [div_le_iff₀ (by norm_num)]; norm_num; linarith
      linarith
    · rw [zero_add, div_le_iff₀ (by positivity)]
      have e1 : (B * (e / r) + 1 / 30) * (r * 99998 / 100000)
          = 99998 / 100000 * (B * e) + r * (99998 / 3000000) := by field_simp; ring
      rw [e1]
      have h1 : e ≤ 120 * r := by linarith
      have h2 : B * e ≤ 8 * (120 * r) := mul_le_mul B8 h1 n (by norm_num)
      linarith
    · linarith
    · linarith
  have s2 : Ap (i 1 - fin x z / v : FV f) D ((G + 1) * D) := by
    refine o1.ap.sub s1 (B := D) (le_of_eq (abs_of_pos (by linarith))) (by linarith) (by linarith) ?_ (by linarith)
    linarith
  have D0 : 0 < D := by linarith
  refine o1.ap.div s2 (ρ := D * 99999 / 100000) (B := 1 / D) (C := 998 / 10 / D) (by positivity) ?_ ?_ ?_ ?_ ?_ ?_ ?_
  · rw [abs_of_pos D0]
    have : (G + 1) * D / 10 ^ 7 ≤ 1 / 100000 * D := by
      rw [div_le_iff₀ (by norm_num)]; nlinarith
    linarith
  · rw [abs_of_pos (by positivity)]
  · rw [div_le_div_iff₀ (by norm_num) D0]; linarith
  · rw [div_le_iff₀ D0]; nlinarith
  · rw [zero_add, div_le_iff₀ (by positivity)]
    have e1 : 1 / D * ((G + 1) * D) = G + 1 := by field_simp
    have e2 : 998 / 10 / D * (D * 99999 / 100000) = 998 / 10 * 99999 / 100000 := by field_simp
    rw [e1, e2]; norm_num; linarith
  · rw [div_le_iff₀ D0]; nlinarith
  · have e1 : 998 / 10 / D + 1 / D + 998 / 10 / D / 10 ^ 7 = (998 / 10 + 1 + 998 / 10 / 10 ^ 7) / D := by ring
    rw [e1]; exact div_le_div_of_nonneg_right (by norm_num) D0.le

/-- `exp_cf` computes its continued fraction to within 101 (slightly enlarged) unit roundoffs. -/
theorem exp_cf_err {x : ℚ} {z : Bool} (hx : |x| ≤ 2) :
    0 < expCf x ∧ Ap (exp_cf (fin x z : FV f)) (expCf x) (101 * expCf x) := by
  unfold exp_cf expCf
  rw [abs_le] at hx
  rcases le_total x 0 with h | h
  · obtain ⟨l, u⟩ := expR_neg_23 h hx.1
    have l0 : 0 < expR x 23 := by linarith
    have q : x / expR x 23 ≤ 0 := div_nonpos_of_nonpos_of_nonneg h l0.le
    have ax : |x| / expR x 23 = -(x / expR x 23) := by rw [abs_of_nonpos h, neg_div]
    have q8 : -8 ≤ x / expR x 23 := by rw [le_div_iff₀ l0]; linarith [hx.1]
    refine ⟨by have : 0 < 1 - x / expR x 23 := by linarith
               positivity, ?_⟩
    have := exp_cf_finish (x := x) (z := z) (G := 985 / 10) (exp_loop_neg (f := f) (z := z) h hx.1) l (by norm_num)
      (by rw [abs_le]; exact hx) (by linarith) ?_ (by norm_num)
    · rw [div_eq_mul_one_div 101] at this; exact this
    · rw [ax]
      have e4 : (274 / 10 : ℚ) / expR x 23 ≤ 1096 / 10 := by rw [div_le_iff₀ l0]; linarith
      have : -(x / expR x 23) * (274 / 10 / expR x 23 + 1) ≤ -(x / expR x 23) * (1106 / 10) :=
        mul_le_mul_of_nonneg_left (by linarith) (by linarith)
      linarith
  · obtain ⟨g, l, u⟩ := expR_pos_23 h hx.2
    have l0 : 0 < expR x 23 := by linarith
    have eD : 1 - x / expR x 23 = (expR x 23 - x) / expR x 23 := by field_simp
    have D0 : 1 / 13 ≤ 1 - x / expR x 23 := by
      rw [eD, le_div_iff₀ l0]; linarith
    refine ⟨by have : 0 < 1 - x / expR x 23 := by linarith
               positivity, ?_⟩
    have := exp_cf_finish (x := x) (z := z) (G := 985 / 10) (exp_loop_pos (f := f) (z := z) h hx.2) (by linarith) (by norm_num)
      (by rw [abs_le]; exact hx) D0 ?_ (by norm_num)
    · rw [div_eq_mul_one_div 101] at this; exact this
    · rw [abs_of_nonneg h]
      have e1 : (x / expR x 23) * (22 / expR x 23 + 1) = ((x / expR x 23) * 22 + x) / expR x 23 := by
        field_simp
      have q1 : x / expR x 23 ≤ 1 := by rw [div_le_iff₀ l0]; linarith
      have e2 : (x / expR x 23) * (22 / expR x 23 + 1) ≤ 24 / expR x 23 := by
        rw [e1]; exact div_le_div_of_nonneg_right (by linarith [hx.2]) l0.le
      rw [eD]
      have e3 : 985 / 10 * ((expR x 23 - x) / expR x 23) = 985 / 10 * (expR x 23 - x) / expR x 23 := by ring
      have e4 : 24 / expR x 23 + 1 / 20 = (24 + expR x 23 / 20) / expR x 23 := by field_simp
      rw [e3]
      refine (add_le_add_left e2 _).trans ?_
      rw [e4]
      exact div_le_div_of_nonneg_right (by linarith) l0.le

end Gcem
