import Verif.Props.Erf
import Verif.Props.ExpTail
import Verif.Props.ConstsAcc
import Verif.Analysis.ErfLarge
import Mathlib.Analysis.Real.Pi.Bounds

/-!
# C71: accuracy of `erf`
-/

namespace Gcem.Props
open Gcem FV
variable {f : Fmt}

/-! ## constants -/

/-- the stored square root of π -/
theorem sqrtPi_lit (hf : f.exact = false) : ∃ c, (L SQRT_PI : FV f) = fin c false ∧ |c - SQRT_PI| ≤ 1002 / 1000 * uro f * (17724 / 10000) := by
  have key : (match (L SQRT_PI : FV f) with
      | fin c false => decide (|c - SQRT_PI| ≤ 1002 / 1000 * uro f * (17724 / 10000))
      | _ => false) = true := by
    obtain ⟨ty, ex⟩ := f
    cases (show ex = false from hf)
    cases ty <;> decide +kernel
  cases h : (L SQRT_PI : FV f) with
  | nan => rw [h] at key; simp at key
  | inf s => rw [h] at key; simp at key
  | fin c z =>
    rw [h] at key
    cases z
    · exact ⟨c, rfl, by simpa using key⟩
    · simp at key

theorem sqrtPi_rel (hf : f.exact = false) : ∃ c, (L SQRT_PI : FV f) = fin c false ∧ 1 ≤ c ∧ c ≤ 2 ∧
    RelR (c : ℝ) (Real.sqrt Real.pi) (1003 / 1000 * uro f) := by
  obtain ⟨c, h1, h2⟩ := sqrtPi_lit hf
  obtain ⟨c', h3, h4, h5⟩ := SQRT_PI_val (f := f)
  rw [h1] at h3
  cases h3
  refine ⟨c, h1, h4, h5, ?_⟩
  have e := SQRT_PI_err
  have h2r := (Rat.cast_le (K := ℝ)).2 h2
  push_cast at h2r e
  have hs : (17724 / 10000 : ℝ) ≤ Real.sqrt Real.pi := by
    apply Real.le_sqrt_of_sq_le
    have := Real.pi_gt_d6
    norm_num; linarith
  have hu : (1 / 2 ^ 64 : ℝ) ≤ uro f := by
    have : (1 / 2 ^ 64 : ℚ) ≤ uro f := by rcases uro_cases hf with h | h | h <;> rw [h] <;> norm_num
    have := (Rat.cast_le (K := ℝ)).2 this
    push_cast at this; exact this
  unfold RelR
  have ee : (c:ℝ) - Real.sqrt Real.pi = (c - (SQRT_PI : ℝ)) + ((SQRT_PI : ℝ) - Real.sqrt Real.pi) := by ring
  rw [ee]
  refine (abs_add_le _ _).trans ((add_le_add h2r e).trans ?_)
  norm_num at hu ⊢
  nlinarith

/-! ## the exponential factor -/

theorem exp_shift {b s δ : ℝ} (h : |b - s| ≤ δ) (hδ : δ ≤ 1 / 1000) : RelR (Real.exp (-b)) (Real.exp (-s)) (1001 / 1000 * δ) := by
  have e : Real.exp (-b) = Real.exp (-s) * Real.exp (s - b) := by rw [← Real.exp_add]; congr 1; ring
  unfold RelR
  have h' : |s - b| ≤ δ := by rw [abs_sub_comm]; exact h
  have hd : 0 ≤ δ := (abs_nonneg _).trans h
  have h1 := Real.abs_exp_sub_one_sub_id_le (x := s - b) (by linarith)
  have h2 : |Real.exp (s - b) - 1| ≤ 1001 / 1000 * δ := by
    have e2 : Real.exp (s - b) - 1 = (Real.exp (s - b) - 1 - (s - b)) + (s - b) := by ring
    rw [e2]
    refine (abs_add_le _ _).trans ((add_le_add h1 h').trans ?_)
    have : (s - b) ^ 2 ≤ δ * δ := by rw [← sq_abs]; nlinarith [abs_nonneg (s - b)]
    nlinarith
  have e3 : Real.exp (-b) - Real.exp (-s) = Real.exp (-s) * (Real.exp (s - b) - 1) := by rw [e]; ring
  rw [e3, abs_mul, abs_of_pos (Real.exp_pos _), mul_comm]
  exact mul_le_mul_of_nonneg_right h2 (Real.exp_pos _).le

theorem uro_64 (hf : f.exact = false) : (1 / 2 ^ 64 : ℝ) ≤ uro f := by
  have : (1 / 2 ^ 64 : ℚ) ≤ uro f := by rcases uro_cases hf with h | h | h <;> rw [h] <;> norm_num
  have := (Rat.cast_le (K := ℝ)).2 this
  push_cast at this; exact this

theorem sqrtPi_pos : 3 / 2 ≤ Real.sqrt Real.pi ∧ Real.sqrt Real.pi ≤ 2 := by
  constructor
  · exact Real.le_sqrt_of_sq_le (by norm_num; linarith [Real.pi_gt_three])
  · rw [Real.sqrt_le_left (by norm_num)]; linarith [Real.pi_lt_four]

theorem erf_emin' (f : Fmt) : pow2 f.emin / 2 ≤ uro f / 10000 := by
  rcases f with ⟨⟨⟩, ⟨⟩⟩ <;> decide +kernel

/-- the computed square -/
theorem erf_square {x : ℚ} {z : Bool} {X : ℝ} (hX : (x:ℝ) ^ 2 ≤ X) (X1 : 1 / 8 ≤ X) (X2 : X ≤ 2 ^ 120) :
    ∃ b : ℚ, Is (fin x z * fin x z : FV f) b ∧ Rep f b ∧ 0 ≤ b ∧ |(b:ℝ) - (x:ℝ) ^ 2| ≤ 1001 / 1000 * uro f * X := by
  have hu := uro_pos_real f
  have xx0 : 0 ≤ x * x := mul_self_nonneg x
  have Xq : x * x ≤ 2 ^ 120 := by
    have : (x:ℝ) * x ≤ 2 ^ 120 := by nlinarith
    exact_mod_cast this
  have nv : overflows f (rnd f (x * x)) = false := nov (by rw [abs_of_nonneg xx0]; exact Xq.trans (by norm_num))
  have iB : Is (fin x z * fin x z : FV f) (rnd f (x * x)) := (is_fin (f := f) x z).mul (is_fin x z) nv
  refine ⟨_, iB, rep_rnd _ _, rnd_nonneg xx0, ?_⟩
  have h := (Rat.cast_le (K := ℝ)).2 (rnd_err_all (f := f) (x * x))
  rw [abs_of_nonneg xx0] at h
  push_cast at h
  have hm' := (Rat.cast_le (K := ℝ)).2 (erf_emin' f)
  push_cast at hm'
  rw [pow_two] at hX ⊢
  refine h.trans ?_
  nlinarith [mul_le_mul_of_nonneg_left hX hu.le]

/-- `exp(-x*x)` -/
theorem erf_exp (hf : f.exact = false) {x b : ℚ} {z : Bool} {X : ℝ} (X1 : 1 / 8 ≤ X) (X2 : X ≤ 82)
    (hX : (x:ℝ) ^ 2 ≤ X) (iB : Is (fin x z * fin x z : FV f) b) (b0 : 0 ≤ b) (bE : |(b:ℝ) - (x:ℝ) ^ 2| ≤ 1001 / 1000 * uro f * X) :
    ∃ r, exp (-(fin x z) * fin x z : FV f) = .ok (fin r false) ∧ 0 < r ∧
      RelR (r : ℝ) (Real.exp (-(x:ℝ) ^ 2)) ((1041 / 10 + 4 * (X + 7) + 10025 / 10000 * X) * uro f) := by
  have hu := uro_pos_real f
  have hu1 := uro_le f
  have hu64 := uro_64 hf
  have hδ : 1001 / 1000 * (uro f : ℝ) * X ≤ 1 / 1000 := by nlinarith
  have bX : (b:ℝ) ≤ X + 1 / 1000 := by
    have := (abs_le.1 bE).2
    linarith
  -- the exponential
  have hex : ∃ r, exp (-(fin x z) * fin x z : FV f) = .ok (fin r false) ∧ 0 < r ∧
      RelR (r : ℝ) (Real.exp (-b)) (104 * uro f + ((b:ℝ) + 7) * (1 / 2 ^ 62)) := by
    rw [neg_mul']
    obtain ⟨w, hw⟩ := iB
    have hv : Valid (fin x z * fin x z : FV f) := valid_mul _ _
    rw [hw] at hv ⊢
    have hv' := hv.neg
    rw [neg_fin] at hv' ⊢
    have bq : b ≤ 83 := by
      have : (b:ℝ) ≤ 83 := by linarith
      exact_mod_cast this
    have hmin : (86:ℚ) ≤ expMin f.ty := by
      have : 86 ≤ expMin f.ty := by rcases f with ⟨⟨⟩, _⟩ <;> simp [expMin]
      exact_mod_cast this
    obtain ⟨r, r1, r2, r3⟩ := C33_accuracy hf _ _ hv' (by linarith) (by
      have : (0:ℚ) ≤ expMax f.ty := by positivity
      linarith)
    refine ⟨r, r1, r2, ?_⟩
    rw [← uro_eq] at r3
    push_cast at r3
    rw [abs_neg (b:ℝ), abs_of_nonneg (show (0:ℝ) ≤ b by exact_mod_cast b0)] at r3
    exact r3
  obtain ⟨r, r1, r2, r3⟩ := hex
  have br0 : (0:ℝ) ≤ b := by exact_mod_cast b0
  have E0 := Real.exp_pos (-(x:ℝ) ^ 2)
  -- relative error of r with respect to exp(-x^2)
  refine ⟨r, r1, r2, ?_⟩
  have rs : RelR (r : ℝ) (Real.exp (-(x:ℝ) ^ 2)) ((1041 / 10 + 4 * (X + 7) + 10025 / 10000 * X) * uro f) := by
    have h1 := exp_shift bE hδ
    have hE1 := Real.exp_pos (-(b:ℝ))
    have h2 : 104 * (uro f : ℝ) + (b + 7) * (1 / 2 ^ 62) ≤ (104 + 4 * (X + 7001 / 1000)) * uro f := by
      have : ((b:ℝ) + 7) * (1 / 2 ^ 62) ≤ (X + 7001 / 1000) * (4 * uro f) := by
        refine mul_le_mul (by linarith) ?_ (by positivity) (by linarith)
        norm_num at hu64 ⊢; linarith
      linarith
    have h3 := r3.mono hE1 h2
    unfold RelR at h1 h3 ⊢
    have hle : Real.exp (-(b:ℝ)) ≤ (1 + 1001 / 1000 * (1001 / 1000 * uro f * X)) * Real.exp (-(x:ℝ) ^ 2) := by
      have := (abs_le.1 h1).2; linarith
    have e : (r:ℝ) - Real.exp (-(x:ℝ) ^ 2) = (r - Real.exp (-(b:ℝ))) + (Real.exp (-(b:ℝ)) - Real.exp (-(x:ℝ) ^ 2)) := by ring
    rw [e]
    refine (abs_add_le _ _).trans ((add_le_add h3 h1).trans ?_)
    have q0 : 0 ≤ (104 + 4 * (X + 7001 / 1000)) * (uro f : ℝ) := by positivity
    have h4 := mul_le_mul_of_nonneg_left hle q0
    generalize Real.exp (-(b:ℝ)) = E1 at *
    generalize Real.exp (-(x:ℝ) ^ 2) = E at *
    generalize (uro f : ℝ) = u at *
    have h5 : (104 + 4 * (X + 7001 / 1000)) * u * (1001 / 1000 * (1001 / 1000 * u * X)) ≤ (5 / 100 + 1 / 10000 * X) * u := by
      have k : (104 + 4 * (X + 7001 / 1000)) * (1001 / 1000 * (1001 / 1000 * X)) * u ≤ 5 / 100 := by
        have : (104 + 4 * (X + 7001 / 1000)) * (1001 / 1000 * (1001 / 1000 * X)) ≤ 500 * 83 := by
          refine mul_le_mul (by linarith) (by linarith) (by positivity) (by norm_num)
        nlinarith
      nlinarith [mul_le_mul_of_nonneg_right k hu.le, mul_nonneg (show 0 ≤ X by linarith) hu.le]
    have h6 := mul_le_mul_of_nonneg_right h5 E0.le
    nlinarith [mul_nonneg (mul_nonneg (show 0 ≤ X by linarith) hu.le) E0.le, mul_nonneg hu.le E0.le]
  exact rs

/-- `exp(-x*x) / sqrt(π)` -/
theorem erf_factor (hf : f.exact = false) {x : ℚ} {z : Bool} {X : ℝ} (hX : (x:ℝ) ^ 2 ≤ X) (X1 : 1 / 8 ≤ X) (X2 : X ≤ 82) :
    ∃ e : FV f, ∃ G : ℚ, exp (-(fin x z) * fin x z : FV f) = .ok e ∧ Is (e / L SQRT_PI) G ∧ Rep f G ∧ 0 < G ∧ G ≤ 1 ∧
      RelR (G : ℝ) (Real.exp (-(x:ℝ) ^ 2) / Real.sqrt Real.pi) ((106 + 4 * (X + 7) + 1003 / 1000 * X + 5 / 10) * uro f) := by
  have hu := uro_pos_real f
  have hu1 := uro_le f
  obtain ⟨b, iB, -, b0, bE⟩ := erf_square (f := f) (z := z) hX X1 (X2.trans (by norm_num))
  obtain ⟨r, r1, r2, rs⟩ := erf_exp hf X1 X2 hX iB b0 bE
  obtain ⟨c, c1, c2, c3, c4⟩ := sqrtPi_rel hf
  obtain ⟨sp1, sp2⟩ := sqrtPi_pos
  have sp : 0 < Real.sqrt Real.pi := by linarith
  have E0 := Real.exp_pos (-(x:ℝ) ^ 2)
  clear iB b0 bE
  have ci := c4.inv sp (by linarith)
  have h1 := rs.mul ci E0 (by positivity)
  have iqr : (r:ℝ) * (1 / (c:ℝ)) = ((r / c : ℚ) : ℝ) := by push_cast; rw [mul_one_div]
  rw [iqr, mul_one_div] at h1
  have c0 : 0 < c := by linarith
  have Gp : 0 < Real.exp (-(x:ℝ) ^ 2) / Real.sqrt Real.pi := by positivity
  have hA : ∃ A, A = (1041 / 10 + 4 * (X + 7) + 10025 / 10000 * X) * (uro f : ℝ) := ⟨_, rfl⟩
  obtain ⟨A, hA⟩ := hA
  rw [← hA] at rs h1
  have e106 : (106 + 4 * (X + 7) + 1003 / 1000 * X + 5 / 10) * (uro f : ℝ) = A + (24 / 10 + 5 / 10000 * X) * uro f := by rw [hA]; ring
  rw [e106]
  have A00 : 0 ≤ A := by rw [hA]; positivity
  have A0 : A ≤ 1 / 10000 := by
    rw [hA]
    have : 1041 / 10 + 4 * (X + 7) + 10025 / 10000 * X ≤ 600 := by linarith
    nlinarith
  have rle : r ≤ 2 := by
    have : (r:ℝ) ≤ 2 := by
      have h2 := rs.le
      have : Real.exp (-(x:ℝ) ^ 2) ≤ 1 := Real.exp_le_one_iff.2 (by nlinarith [sq_nonneg (x:ℝ)])
      nlinarith
    exact_mod_cast this
  have elo : (1 / 2 ^ 123 : ℝ) ≤ Real.exp (-(x:ℝ) ^ 2) := by
    have h2 : Real.exp (-82) ≤ Real.exp (-(x:ℝ) ^ 2) := Real.exp_le_exp.2 (by linarith)
    refine le_trans ?_ h2
    have e1 : Real.exp (-82) = (Real.exp 1 ^ 82)⁻¹ := by rw [Real.exp_neg, ← Real.exp_nat_mul]; norm_num
    rw [e1, ← one_div]
    apply one_div_le_one_div_of_le (pow_pos (Real.exp_pos 1) _)
    refine (pow_le_pow_left₀ (Real.exp_pos 1).le Real.exp_one_lt_d9.le 82).trans ?_
    norm_num
  have Glo : (1 / 2 ^ 124 : ℝ) ≤ Real.exp (-(x:ℝ) ^ 2) / Real.sqrt Real.pi := by
    rw [le_div_iff₀ sp]; norm_num at elo ⊢; linarith
  have rc0 : 0 < r / c := by positivity
  have hn : minNormal f ≤ |r / c| := by
    rw [abs_of_pos rc0]
    have h2 := h1.ge
    have hm := (Rat.cast_le (K := ℝ)).2 (minNormal_le' f)
    push_cast at hm
    have : ((minNormal f : ℚ) : ℝ) ≤ ((r / c : ℚ) : ℝ) := by
      refine hm.trans (le_trans ?_ h2)
      have k : A + 1001 / 1000 * (1003 / 1000 * (uro f : ℝ)) + A * (1001 / 1000 * (1003 / 1000 * (uro f : ℝ))) ≤ 1 / 2 := by nlinarith
      nlinarith
    exact_mod_cast this
  have h2 := h1.round (f := f) Gp hn
  have iG := (is_fin (f := f) r false).div (is_fin c false) c0.ne' (nov (by
    rw [abs_of_pos rc0, div_le_iff₀ c0]; norm_num; linarith))
  have hfin : RelR ((rnd f (r / c) : ℚ) : ℝ) (Real.exp (-(x:ℝ) ^ 2) / Real.sqrt Real.pi) (A + (24 / 10 + 5 / 10000 * X) * uro f) := by
    refine h2.mono Gp ?_
    nlinarith [mul_nonneg A00 hu.le, mul_nonneg (show 0 ≤ X by linarith) hu.le]
  have k2 : A + (24 / 10 + 5 / 10000 * X) * (uro f : ℝ) ≤ 1 / 10 := by nlinarith
  have G0 : 0 < rnd f (r / c) := by
    have : (0:ℝ) < (rnd f (r / c) : ℚ) := hfin.pos Gp (by linarith)
    exact_mod_cast this
  refine ⟨_, _, r1, by rw [c1]; exact iG, rep_rnd _ _, G0, ?_, hfin⟩
  have h3 := hfin.le
  have : ((rnd f (r / c) : ℚ) : ℝ) ≤ 1 := by
    refine h3.trans ?_
    have k1 : Real.exp (-(x:ℝ) ^ 2) / Real.sqrt Real.pi ≤ 2 / 3 := by
      rw [div_le_iff₀ sp]
      have : Real.exp (-(x:ℝ) ^ 2) ≤ 1 := Real.exp_le_one_iff.2 (by nlinarith [sq_nonneg (x:ℝ)])
      linarith
    nlinarith
  exact_mod_cast this

/-! ## small arguments -/

theorem RelR.div' {r y a r' y' b : ℝ} (h : RelR r y a) (h' : RelR r' y' b) (hy : 0 < y) (hy' : 0 < y') (hb : b < 1) :
    RelR (r / r') (y / y') ((a + b) / (1 - b)) := by
  have ha := h.nonneg hy
  have hb0 := h'.nonneg hy'
  have r0 := h'.pos hy' hb
  have h1 := h'.ge
  unfold RelR at *
  have e : r / r' - y / y' = ((r - y) * y' - y * (r' - y')) / (r' * y') := by field_simp; ring
  rw [e, abs_div, abs_of_pos (mul_pos r0 hy'), div_mul_div_comm, div_le_div_iff₀ (by positivity) (mul_pos (by linarith) hy')]
  have h2 : |(r - y) * y' - y * (r' - y')| ≤ (a + b) * (y * y') := by
    refine (abs_sub _ _).trans ?_
    rw [abs_mul, abs_mul, abs_of_pos hy, abs_of_pos hy']
    have := mul_le_mul_of_nonneg_right h hy'.le
    have := mul_le_mul_of_nonneg_left h' hy.le
    linarith
  have h3 := mul_le_mul_of_nonneg_right h2 (mul_pos (show 0 < 1 - b by linarith) hy').le
  refine h3.trans ?_
  have h4 := mul_le_mul_of_nonneg_left h1 (show 0 ≤ (a + b) * y * y' by positivity)
  nlinarith

/-- the leading factor is a normal value -/
theorem erf_lead {x : ℝ} {m : ℝ} (m0 : 0 < m) (m1 : m ≤ 1 / 2 ^ 125) (h : m ≤ x) (h2 : x ^ 2 ≤ 5) :
    11 / 10 * m ≤ 2 * x * (Real.exp (-x ^ 2) / Real.sqrt Real.pi) := by
  have x0 : 0 < x := by linarith
  obtain ⟨s1, s2⟩ := sqrtPi_pos
  have s3 : Real.sqrt Real.pi ≤ 17725 / 10000 := by
    rw [Real.sqrt_le_left (by norm_num)]; norm_num; linarith [Real.pi_lt_d4]
  rw [mul_div_assoc', le_div_iff₀ (by linarith)]
  rcases le_or_gt x (1 / 10) with hx | hx
  · have h3 := Real.add_one_le_exp (-x ^ 2)
    have : x ^ 2 ≤ 1 / 100 := by nlinarith
    nlinarith [mul_le_mul_of_nonneg_left (show 99 / 100 ≤ Real.exp (-x ^ 2) by linarith) x0.le]
  · have h3 : Real.exp (-5) ≤ Real.exp (-x ^ 2) := Real.exp_le_exp.2 (by linarith)
    have h4 : (1 / 200 : ℝ) ≤ Real.exp (-5) := by
      have e1 : Real.exp (-5) = (Real.exp 1 ^ 5)⁻¹ := by rw [Real.exp_neg, ← Real.exp_nat_mul]; norm_num
      rw [e1, ← one_div]
      apply one_div_le_one_div_of_le (pow_pos (Real.exp_pos 1) _)
      refine (pow_le_pow_left₀ (Real.exp_pos 1).le Real.exp_one_lt_d9.le 5).trans ?_
      norm_num
    norm_num at m1
    nlinarith

theorem erf_arith {u X K C a : ℝ} (hu : 0 < u) (hu1 : u ≤ 1 / 16777216) (X0 : 0 ≤ X) (X2 : X ≤ 5) (K0 : 0 ≤ K) (K1 : K ≤ 80000)
    (ha : a = (1345 / 10 + 5003 / 1000 * X) * u) (hC : 1356 / 10 + 5004 / 1000 * X + K ≤ (C - 101 / 100) * (1 - K / 16777216)) :
    (a + u + a * u + K * u) / (1 - K * u) ≤ (C - 101 / 100) * u := by
  have Ku : K * u ≤ 1 / 200 := by nlinarith
  have a1 : a ≤ 1 / 100000 := by rw [ha]; nlinarith
  rw [div_le_iff₀ (by linarith)]
  have k1 : a + u + a * u + K * u ≤ (1356 / 10 + 5004 / 1000 * X + K) * u := by
    have h1 := mul_le_mul_of_nonneg_right a1 hu.le
    have h2 := mul_nonneg X0 hu.le
    have h3 : a + u + a * u + K * u ≤ a + u + 1 / 100000 * u + K * u := by linarith
    rw [ha] at h3 ⊢
    linarith
  have k2 : (1 - K / 16777216) ≤ 1 - K * u := by nlinarith
  have k3 : 0 ≤ C - 101 / 100 := by
    by_contra hc
    push Not at hc
    have : 0 < 1 - K / 16777216 := by linarith
    nlinarith
  have k4 := mul_le_mul_of_nonneg_left k2 k3
  have k5 := mul_le_mul_of_nonneg_right (hC.trans k4) hu.le
  linarith

theorem erf_div {mv kv : FV f} {M k : ℚ} {P T X K C a : ℝ} (iM : Is mv M) (iK : Is kv k) (hL : 0 < P) (Tp : 0 < T) (T1 : T ≤ 1)
    (lead : 11 / 10 * (minNormal f : ℝ) ≤ P) (h2 : P / T ≤ 1) (a0 : 0 ≤ a) (a1 : a ≤ 1 / 100000) (X1 : 1 / 8 ≤ X) (X2 : X ≤ 5) (K0 : 0 ≤ K)
    (K1 : K ≤ 80000) (C1 : C ≤ 100000) (ha : a = (1345 / 10 + 5003 / 1000 * X) * uro f)
    (hC : 1356 / 10 + 5004 / 1000 * X + K ≤ (C - 101 / 100) * (1 - K / 16777216))
    (rM : RelR (M : ℝ) P (a + uro f + a * uro f)) (hK : RelR (k : ℝ) T (K * uro f)) :
    ∃ R, Is (mv / kv) R ∧ 0 < R ∧ RelR (R : ℝ) (P / T) (C * uro f) := by
  have hu := uro_pos_real f
  have hu1 := uro_le f
  have m0 : (0:ℝ) < minNormal f := by exact_mod_cast minNormal_pos f
  have Ku : K * (uro f : ℝ) ≤ 1 / 200 := by nlinarith
  have kp : 0 < k := by
    have : (0:ℝ) < k := hK.pos Tp (by linarith)
    exact_mod_cast this
  have hQ := rM.div' hK hL Tp (by linarith)
  obtain ⟨t, ht⟩ : ∃ t, t = (a + uro f + a * uro f + K * uro f) / (1 - K * uro f) := ⟨_, rfl⟩
  rw [← ht] at hQ
  have PT : 0 < P / T := by positivity
  have t0 : 0 ≤ t := hQ.nonneg PT
  have t1 : t ≤ (C - 101 / 100) * uro f := by
    rw [ht]; exact erf_arith hu hu1 (by linarith) X2 K0 K1 ha hC
  have Cu : C * uro f ≤ 1 / 100 := by nlinarith
  have t2 : t ≤ 1 / 100 := by linarith
  have Mr0 : (0:ℝ) < M := rM.pos hL (by nlinarith)
  have M0 : 0 < M := by exact_mod_cast Mr0
  have q0 : 0 < M / k := by positivity
  have hQ' : RelR ((M / k : ℚ) : ℝ) (P / T) t := by push_cast; exact hQ
  have PTlo : P ≤ P / T := by rw [le_div_iff₀ Tp]; exact mul_le_of_le_one_right hL.le T1
  have nQ : minNormal f ≤ |M / k| := by
    rw [abs_of_pos q0]
    have : ((minNormal f : ℚ) : ℝ) ≤ ((M / k : ℚ) : ℝ) := by
      have := hQ'.ge; nlinarith
    exact_mod_cast this
  have rQ := hQ'.round (f := f) PT nQ
  have hfin : RelR ((rnd f (M / k) : ℚ) : ℝ) (P / T) (C * uro f) := rQ.mono PT (by
    have h1 := mul_le_mul_of_nonneg_right t2 hu.le
    linarith)
  -- a bound of the quotient, against overflow
  have Qhi : M / k ≤ 2 ^ 127 := by
    have : ((M / k : ℚ) : ℝ) ≤ 2 := by
      have h1 := hQ'.le
      nlinarith
    have h2 : M / k ≤ 2 := by exact_mod_cast this
    exact h2.trans (by norm_num)
  have iQ := iM.div iK kp.ne' (nov (by rw [abs_of_pos q0]; exact Qhi))
  have Q0 : 0 < rnd f (M / k) := by
    have : (0:ℝ) < (rnd f (M / k) : ℚ) := hfin.pos PT (by linarith)
    exact_mod_cast this
  exact ⟨rnd f (M / k), iQ, Q0, hfin⟩

theorem erf_small_acc (hf : f.exact = false) {x : ℚ} {z : Bool} {X K C : ℚ} (hx : Valid (fin x z : FV f)) (hn : minNormal f ≤ x)
    (hX : x ^ 2 ≤ X) (X1 : 1 / 8 ≤ X) (X2 : X ≤ 5) (hok : erOk X (uro f) K = true) (K0 : 0 ≤ K) (K1 : K ≤ 80000)
    (C1 : C ≤ 100000) (hC : 1356 / 10 + 5004 / 1000 * X + K ≤ (C - 101 / 100) * (1 - K / 16777216)) :
    ∃ r, erf_cf_small_main (fin x z : FV f) = .ok (fin r false) ∧ 0 < r ∧ RelR (r : ℝ) (erfR x) (C * uro f) := by
  have hu := uro_pos_real f
  have hu1 := uro_le f
  have x0 : 0 < x := lt_of_lt_of_le (minNormal_pos f) hn
  have x0r : (0:ℝ) < x := by exact_mod_cast x0
  have hXr : (x:ℝ) ^ 2 ≤ (X:ℝ) := by
    have := (Rat.cast_le (K := ℝ)).2 hX
    push_cast at this; exact this
  have X1r : (1 / 8 : ℝ) ≤ X := by have := (Rat.cast_le (K := ℝ)).2 X1; push_cast at this; exact this
  have X2r : (X:ℝ) ≤ 5 := by exact_mod_cast X2
  have K0r : (0:ℝ) ≤ K := by exact_mod_cast K0
  have K1r : (K:ℝ) ≤ 80000 := by exact_mod_cast K1
  have C1r : (C:ℝ) ≤ 100000 := by exact_mod_cast C1
  have hCr := (Rat.cast_le (K := ℝ)).2 hC
  push_cast at hCr
  obtain ⟨b, iB, rB, b0, bE⟩ := erf_square (f := f) (z := z) hXr X1r (X2r.trans (by norm_num))
  obtain ⟨e, G, e1, iG, rG, G0, G1, eG⟩ := erf_factor hf (z := z) hXr X1r (by linarith)
  obtain ⟨k, iK, eK⟩ := erf_small_cf iB rB (sq_nonneg _) hXr X1 (by linarith) bE hok
  have Tp := erT_pos 1 le_rfl (sq_nonneg (x:ℝ))
  have T1 : erT 1 ((x:ℝ) ^ 2) ≤ 1 := by
    have := erT_le 1 le_rfl (sq_nonneg (x:ℝ))
    norm_num at this; exact this
  have hK : RelR (k : ℝ) (erT 1 ((x:ℝ) ^ 2)) (K * uro f) := eK
  have m0 : (0:ℝ) < minNormal f := by exact_mod_cast minNormal_pos f
  have m1 : ((minNormal f : ℚ) : ℝ) ≤ 1 / 2 ^ 125 := by
    have := (Rat.cast_le (K := ℝ)).2 (minNormal_le' f)
    push_cast at this; exact this
  have lead := erf_lead m0 m1 (show ((minNormal f : ℚ) : ℝ) ≤ x by exact_mod_cast hn) (hXr.trans X2r)
  have gp : 0 < Real.exp (-(x:ℝ) ^ 2) / Real.sqrt Real.pi := by have := sqrtPi_pos.1; positivity
  -- 2x
  have x5 : x ≤ 5 := by nlinarith
  have i2x : Is (i 2 * fin x z : FV f) (2 * x) := by
    have h2 : Is (i 2 : FV f) 2 := by have := is_i (f := f) (n := 2) (by norm_num); push_cast at this; exact this
    have := h2.mul (is_fin (f := f) x z) (nov (by rw [abs_of_pos (by linarith)]; norm_num; linarith))
    rwa [rep_double hx.rep] at this
  have c2x : RelR ((2 * x : ℚ) : ℝ) (2 * x) 0 := by unfold RelR; push_cast; simp
  have hM := c2x.mul eG (by positivity) gp
  have hM' : RelR ((2 * x * G : ℚ) : ℝ) (2 * x * (Real.exp (-(x:ℝ) ^ 2) / Real.sqrt Real.pi)) ((1345 / 10 + 5003 / 1000 * X) * uro f) := by
    have : (((2 * x : ℚ) : ℝ) * G) = ((2 * x * G : ℚ) : ℝ) := by push_cast; ring
    rw [this] at hM
    refine hM.mono (by positivity) (le_of_eq (by ring))
  clear hM
  have hL : 0 < 2 * (x:ℝ) * (Real.exp (-(x:ℝ) ^ 2) / Real.sqrt Real.pi) := by positivity
  have eT := erfR_eq x0r
  have eT' : erfR x = 2 * (x:ℝ) * (Real.exp (-(x:ℝ) ^ 2) / Real.sqrt Real.pi) / erT 1 ((x:ℝ) ^ 2) := eT
  rw [eT']
  have pM0 : 0 < 2 * x * G := by positivity
  generalize 2 * (x:ℝ) * (Real.exp (-(x:ℝ) ^ 2) / Real.sqrt Real.pi) = P at *
  generalize erT 1 ((x:ℝ) ^ 2) = T at *
  obtain ⟨a, ha⟩ : ∃ a, a = (1345 / 10 + 5003 / 1000 * (X:ℝ)) * uro f := ⟨_, rfl⟩
  rw [← ha] at hM'
  have a0 : 0 ≤ a := by rw [ha]; positivity
  have a1 : a ≤ 1 / 100000 := by rw [ha]; nlinarith
  have nM : minNormal f ≤ |2 * x * G| := by
    rw [abs_of_pos pM0]
    have : ((minNormal f : ℚ) : ℝ) ≤ ((2 * x * G : ℚ) : ℝ) := by
      have := hM'.ge; nlinarith
    exact_mod_cast this
  have rM := hM'.round (f := f) hL nM
  have iM := i2x.mul iG (nov (by rw [abs_of_pos pM0]; norm_num; nlinarith))
  generalize rnd f (2 * x * G) = M at *
  obtain ⟨R, iR, R0, eR⟩ := erf_div iM iK hL Tp T1 (by linarith) (by rw [← eT']; exact (erfR_lt_one _).le) a0 a1 X1r X2r K0r K1r C1r ha hCr rM hK
  refine ⟨R, ?_, R0, eR⟩
  unfold erf_cf_small_main
  rw [e1]
  simp only [bind, Except.bind]
  obtain ⟨w, hw⟩ := iR
  have hv : Valid (i 2 * fin x z * (e / L SQRT_PI) / erf_cf_small_recur (fin x z * fin x z : FV f) 1) := valid_div _ _
  rw [hw] at hv ⊢
  rw [hv.z_false R0.ne']

end Gcem.Props
