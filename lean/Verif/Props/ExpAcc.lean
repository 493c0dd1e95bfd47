import Verif.Analysis.ExpReal
import Verif.Props.Exp
import Verif.Props.PowFloat
import Verif.Fp.Exact

/-!
# C32, C33: accuracy of `exp`
-/

namespace Gcem.Props
open Gcem FV
variable {f : Fmt}

/-! ## Relative errors over the reals -/

/-- `r` is within relative error `ε` of `y` -/
def RelR (r y ε : ℝ) : Prop := |r - y| ≤ ε * y

theorem RelR.mono {r y ε ε' : ℝ} (h : RelR r y ε) (hy : 0 < y) (he : ε ≤ ε') : RelR r y ε' :=
  le_trans h (mul_le_mul_of_nonneg_right he hy.le)

theorem RelR.nonneg {r y ε : ℝ} (h : RelR r y ε) (hy : 0 < y) : 0 ≤ ε := by
  have := (abs_nonneg _).trans h
  by_contra hc
  push Not at hc
  nlinarith

theorem RelR.mul {r r' y y' a b : ℝ} (h : RelR r y a) (h' : RelR r' y' b) (hy : 0 < y) (hy' : 0 < y') :
    RelR (r * r') (y * y') (a + b + a * b) := by
  have ha := h.nonneg hy
  have hb := h'.nonneg hy'
  unfold RelR at *
  have e : r * r' - y * y' = (r - y) * y' + y * (r' - y') + (r - y) * (r' - y') := by ring
  rw [e]
  have m1 : |(r - y) * y'| ≤ a * y * y' := by rw [abs_mul, abs_of_pos hy']; exact mul_le_mul_of_nonneg_right h hy'.le
  have m2 : |y * (r' - y')| ≤ y * (b * y') := by rw [abs_mul, abs_of_pos hy]; exact mul_le_mul_of_nonneg_left h' hy.le
  have m3 : |(r - y) * (r' - y')| ≤ a * y * (b * y') := by
    rw [abs_mul]; exact mul_le_mul h h' (abs_nonneg _) (by positivity)
  refine (abs_add_le _ _).trans ((add_le_add ((abs_add_le _ _).trans (add_le_add m1 m2)) m3).trans (le_of_eq ?_))
  ring

theorem RelR.pos {r y a : ℝ} (h : RelR r y a) (hy : 0 < y) (ha : a < 1) : 0 < r := by
  have := (abs_le.1 h).1
  nlinarith

theorem RelR.ge {r y a : ℝ} (h : RelR r y a) : (1 - a) * y ≤ r := by
  have := (abs_le.1 h).1; linarith

theorem RelR.le {r y a : ℝ} (h : RelR r y a) : r ≤ (1 + a) * y := by
  have := (abs_le.1 h).2; linarith

/-- rounding adds one unit roundoff -/
theorem RelR.round {q : ℚ} {y a : ℝ} (h : RelR (q : ℝ) y a) (hy : 0 < y) (hn : minNormal f ≤ |q|) :
    RelR ((rnd f q : ℚ) : ℝ) y (a + uro f + a * uro f) := by
  obtain ⟨δ, h1, h2⟩ := rnd_rel hn
  have h3 : RelR (1 + δ) 1 (uro f : ℝ) := by unfold RelR; simpa using h1
  have := h.mul h3 hy one_pos
  rwa [mul_one, ← h2] at this

/-! ## The direct range -/

/-- `exp_cf` for `|x| ≤ 2` is a positive finite value within `101.2 u + 1.1e-18` of `e^x`. -/
theorem exp_cf_rel {x : ℚ} {z : Bool} (hx : |x| ≤ 2) :
    ∃ r, exp_cf (fin x z : FV f) = fin r false ∧ Rep f r ∧ 0 < r ∧
      RelR (r : ℝ) (Real.exp x) (1012 / 10 * uro f + 11 / 10 ^ 19) := by
  obtain ⟨hT, a, ⟨w, ha⟩, he⟩ := exp_cf_err (f := f) (z := z) hx
  have hv : Valid (exp_cf (fin x z : FV f)) := valid_div _ _
  have hu := uro_pos_real f
  have hu1 := uro_le f
  have he' : |(a : ℝ) - (expCf x : ℝ)| ≤ (101101 / 1000 * (uro f : ℝ)) * (expCf x : ℝ) := by
    have h2 : |a - expCf x| ≤ (101101 / 1000 * uro f) * expCf x := by
      refine he.trans (le_of_eq ?_); unfold wro; ring
    have h3 := (Rat.cast_le (K := ℝ)).2 h2
    push_cast at h3; exact h3
  have ht := expCf_trunc hx
  have hE := Real.exp_pos (x : ℝ)
  have hrel : RelR (a : ℝ) (Real.exp x) (1012 / 10 * uro f + 11 / 10 ^ 19) := by
    unfold RelR
    have e : (a : ℝ) - Real.exp x = (a - (expCf x : ℝ)) + ((expCf x : ℝ) - Real.exp x) := by ring
    rw [e]
    refine (abs_add_le _ _).trans ((add_le_add he' ht).trans ?_)
    have hT2 : (expCf x : ℝ) ≤ (1 + 1 / 10 ^ 18) * Real.exp x := by
      have := (abs_le.1 ht).2; linarith
    have : (101101 / 1000 * (uro f : ℝ)) * (expCf x : ℝ) ≤ (101101 / 1000 * (uro f : ℝ)) * ((1 + 1 / 10 ^ 18) * Real.exp x) :=
      mul_le_mul_of_nonneg_left hT2 (by positivity)
    refine (add_le_add_left this _).trans ?_
    have hmul : (uro f : ℝ) * Real.exp x ≥ 0 := by positivity
    have hm2 : (uro f : ℝ) * Real.exp x ≤ 1 / 16777216 * Real.exp x := mul_le_mul_of_nonneg_right hu1 hE.le
    nlinarith
  have hpos : (0 : ℝ) < a := hrel.pos hE (by linarith)
  have hpos' : 0 < a := by exact_mod_cast hpos
  rw [ha] at hv ⊢
  have hz := hv.z_false hpos'.ne'
  subst hz
  exact ⟨a, rfl, hv.rep, hpos', hrel⟩

/-- C33 on the direct range: for every value with `|x| < 2`, `exp(x)` is a positive finite value within
`101.2` unit roundoffs (plus a truncation error of `1.1e-18`) of `e^x`. -/
theorem C33_direct_range (q : ℚ) (z : Bool) (h2 : |q| < 2) :
    ∃ r, exp (fin q z : FV f) = .ok (fin r false) ∧ 0 < r ∧
      |(r : ℝ) - Real.exp q| ≤ (1012 / 10 * (1 / 2 ^ f.prec) + 11 / 10 ^ 19) * Real.exp q := by
  rcases lt_or_ge |q| (minNormal f) with h | h
  · refine ⟨1, exp_tiny h, one_pos, ?_⟩
    have hq : |(q : ℝ)| ≤ 1 / 10 ^ 30 := by
      have h1 : |q| ≤ 1 / 10 ^ 30 := by
        refine h.le.trans ((minNormal_le f).trans ?_)
        have : pow2 (-126) = 1 / 2 ^ 126 := by rw [pow2_eq]; norm_num
        rw [this]; norm_num
      have h2 := (Rat.cast_le (K := ℝ)).2 h1
      push_cast at h2; exact h2
    have h1 := Real.abs_exp_sub_one_le (x := (q : ℝ)) (by linarith)
    have hE : 1 / 2 ≤ Real.exp (q : ℝ) := by have := (abs_le.1 h1).1; linarith
    have hu := uro_pos_real f
    rw [uro_eq] at hu
    rw [Rat.cast_one, abs_sub_comm]
    refine h1.trans ?_
    have : (11 / 10 ^ 19 : ℝ) * (1 / 2) ≤ (1012 / 10 * (1 / 2 ^ f.prec) + 11 / 10 ^ 19) * Real.exp q :=
      mul_le_mul (by linarith) hE (by norm_num) (by linarith)
    linarith
  · obtain ⟨r, h1, -, h3, h4⟩ := exp_cf_rel (f := f) (z := z) h2.le
    refine ⟨r, by rw [exp_mid h h2, h1], h3, ?_⟩
    rw [← uro_eq]; exact h4

/-! ## Powers of the stored constant -/

theorem L_E : (L GCEM_E : FV x87) = fin (12535862302449814171 / 4611686018427387904) false := by decide +kernel

/-- the stored `e` -/
def cE : ℚ := 12535862302449814171 / 4611686018427387904

theorem L_E' : (L GCEM_E : FV x87) = fin cE false := L_E

theorem cE_rel : RelR (cE : ℝ) (Real.exp 1) (uro x87) := by
  have h := abs_le.1 GCEM_E_err
  have h1 : |cE - GCEM_E| ≤ 1 / 2 ^ 63 := by rw [abs_le]; unfold cE GCEM_E; constructor <;> norm_num
  have h1' : |(cE : ℝ) - (GCEM_E : ℝ)| ≤ 1 / 2 ^ 63 := by
    have := (Rat.cast_le (K := ℝ)).2 h1
    push_cast at this; exact this
  have h2 := abs_le.1 h1'
  have e1 := Real.exp_one_gt_d9
  unfold RelR
  rw [uro_eq]
  push_cast at h
  rw [abs_le]
  norm_num [Fmt.prec, FTy.prec] at *
  constructor <;> linarith [h.1, h.2, h2.1, h2.2]

theorem one_add_pow_le {u : ℝ} (hu : 0 ≤ u) (m : ℕ) (h : m * u ≤ 1 / 2000) :
    (1 + u) ^ m ≤ 1 + 1001 / 1000 * (m * u) := by
  rcases Nat.eq_zero_or_pos m with rfl | hm
  · simp
  have hm' : (1:ℝ) ≤ m := by exact_mod_cast hm
  have hu1 : u ≤ 1 / 2000 := by nlinarith
  have b := one_add_mul_le_pow (a := -u) (by linarith) m
  have h0 : 0 < 1 + (m:ℝ) * -u := by linarith
  have h1 : (1 + u) ^ m * (1 + -u) ^ m ≤ 1 := by
    rw [← mul_pow]; exact pow_le_one₀ (by nlinarith) (by nlinarith)
  have h2 : 0 < (1 + u) ^ m := by positivity
  have h3 : (1 + u) ^ m * (1 + (m:ℝ) * -u) ≤ 1 := (mul_le_mul_of_nonneg_left b h2.le).trans h1
  rw [← le_div_iff₀ h0] at h3
  refine h3.trans ?_
  rw [div_le_iff₀ h0]
  have : 0 ≤ (m:ℝ) * u := by positivity
  nlinarith

theorem one_sub_pow_ge {u : ℝ} (hu1 : u ≤ 1) (m : ℕ) : 1 - m * u ≤ (1 - u) ^ m := by
  have b := one_add_mul_le_pow (a := -u) (by linarith) m
  have e : (1 + -u) = 1 - u := by ring
  rw [e] at b
  linarith

/-- `r = y` up to `m` factors within `1 ± u` -/
theorem relR_of_pow {r y u : ℝ} {m : ℕ} (hy : 0 < y) (hu : 0 ≤ u) (h : m * u ≤ 1 / 2000)
    (h1 : (1 - u) ^ m * y ≤ r) (h2 : r ≤ (1 + u) ^ m * y) : RelR r y (1001 / 1000 * (m * u)) := by
  have mu : 0 ≤ (m:ℝ) * u := by positivity
  have a := one_add_pow_le hu m h
  unfold RelR
  rcases Nat.eq_zero_or_pos m with rfl | hm
  · simp at *; linarith
  have hm' : (1:ℝ) ≤ m := by exact_mod_cast hm
  have b := one_sub_pow_ge (u := u) (by nlinarith) m
  have a' := h2.trans (mul_le_mul_of_nonneg_right a hy.le)
  have b' := (mul_le_mul_of_nonneg_right b hy.le).trans h1
  rw [abs_le]
  constructor <;> nlinarith

theorem u87 : (uro x87 : ℝ) = 1 / 2 ^ 64 := by rw [uro_eq]; rfl

/-- `pow(GCEM_E, n)` for `0 ≤ n ≤ 11356` -/
theorem pow_E_nonneg (n : ℕ) (hn : n ≤ 11356) :
    ∃ p w, pow_integral_llint (L GCEM_E : FV x87) n = fin p w ∧ 0 < p ∧
      (1 - (uro x87 : ℝ)) ^ (2 * n) * Real.exp n ≤ p ∧ (p : ℝ) ≤ (1 + (uro x87 : ℝ)) ^ (2 * n) * Real.exp n := by
  rw [L_E']
  have hc : |cE| = cE := abs_of_pos (by decide +kernel)
  have c0 : 0 < cE := by decide +kernel
  have c1 : 1 ≤ cE := by decide +kernel
  have hu := uro_pos x87
  have hu1 := uro_lt_half x87
  obtain ⟨p, w, h1, θ, h2, h3, h4⟩ := C12_finite (f := x87) rfl (-2 ^ 63) (2 ^ 63 - 1)
    cE false (by decide +kernel) (by rw [hc]; exact c1) n (by omega) (by
      rw [hc]
      refine lt_of_le_of_lt (mul_le_mul (pow_le_pow_right₀ c1 hn) (pow_le_pow_right₀ (by linarith) hn)
        (by positivity) (by positivity)) ?_
      decide +kernel)
  have hθ : 0 < θ := lt_of_lt_of_le (pow_pos (by linarith) _) h3
  have h3' : (1 - uro x87) ^ n ≤ θ :=
    (pow_le_pow_of_le_one (by linarith) (by linarith) (by omega)).trans h3
  have h4' : θ ≤ (1 + uro x87) ^ n := h4.trans (pow_le_pow_right₀ (by linarith) (by omega))
  have h3r : (1 - (uro x87 : ℝ)) ^ n ≤ (θ : ℝ) := by
    have := (Rat.cast_le (K := ℝ)).2 h3'; push_cast at this; exact this
  have h4r : (θ : ℝ) ≤ (1 + (uro x87 : ℝ)) ^ n := by
    have := (Rat.cast_le (K := ℝ)).2 h4'; push_cast at this; exact this
  have hE : Real.exp n = Real.exp 1 ^ n := by rw [← Real.exp_nat_mul, mul_one]
  have hEp := Real.exp_pos 1
  have hur := uro_pos_real x87
  have hur1 := uro_le x87
  have k1 : ((1 - (uro x87 : ℝ)) * Real.exp 1) ^ n ≤ (cE : ℝ) ^ n :=
    pow_le_pow_left₀ (mul_nonneg (by linarith) hEp.le) cE_rel.ge n
  have k2 : (cE : ℝ) ^ n ≤ ((1 + (uro x87 : ℝ)) * Real.exp 1) ^ n :=
    pow_le_pow_left₀ (by exact_mod_cast c0.le) cE_rel.le n
  have hθr : (0:ℝ) < θ := by exact_mod_cast hθ
  have hcr : (0:ℝ) < (cE : ℝ) ^ n := by have : (0:ℝ) < cE := by exact_mod_cast c0
                                        positivity
  rw [mul_pow] at k1 k2
  refine ⟨p, w, h1, by rw [h2]; positivity, ?_, ?_⟩
  · rw [h2, hE, two_mul, pow_add]; push_cast
    calc (1 - (uro x87 : ℝ)) ^ n * (1 - (uro x87 : ℝ)) ^ n * Real.exp 1 ^ n
        = ((1 - (uro x87 : ℝ)) ^ n * Real.exp 1 ^ n) * (1 - (uro x87 : ℝ)) ^ n := by ring
      _ ≤ _ := mul_le_mul k1 h3r (pow_nonneg (by linarith) _) hcr.le
  · rw [h2, hE, two_mul, pow_add]; push_cast
    calc (cE : ℝ) ^ n * θ ≤ ((1 + (uro x87 : ℝ)) ^ n * Real.exp 1 ^ n) * (1 + (uro x87 : ℝ)) ^ n :=
          mul_le_mul k2 h4r hθr.le (by positivity)
      _ = _ := by ring

/-- the arguments for which `e^x` is a normal value are those between `-expMin` and `expMax` (up to one unit) -/
def expMax : FTy → ℕ | .float => 88 | .double => 709 | .ldouble => 11356
/-- see `expMax` -/
def expMin : FTy → ℕ | .float => 86 | .double => 707 | .ldouble => 11354

theorem expMax_ok (t : FTy) : (27182818286 / 10 ^ 10 : ℚ) ^ expMax t ≤ 7 / 10 * pow2 t.emax := by
  cases t <;> decide +kernel
theorem expMin_ok (f : Fmt) : 11 / 10 * minNormal f * (27182818286 / 10 ^ 10 : ℚ) ^ (expMin f.ty + 1) ≤ 1 := by
  rcases f with ⟨⟨⟩, ⟨⟩⟩ <;> decide +kernel

theorem exp_le_of {y : ℝ} (h : y ≤ expMax f.ty) : Real.exp y ≤ 7 / 10 * (pow2 f.emax : ℝ) := by
  refine (Real.exp_le_exp.2 h).trans ?_
  have hE : Real.exp (expMax f.ty : ℝ) = Real.exp 1 ^ expMax f.ty := by rw [← Real.exp_nat_mul, mul_one]
  rw [hE]
  have h1 := (Rat.cast_le (K := ℝ)).2 (expMax_ok f.ty)
  refine (pow_le_pow_left₀ (Real.exp_pos 1).le Real.exp_one_lt_d9.le _).trans (le_trans (le_of_eq ?_) (h1.trans (le_of_eq ?_)))
  · push_cast; congr 1; norm_num
  · push_cast; rfl

theorem le_exp_of {y : ℝ} (h : -((expMin f.ty : ℝ) + 1) ≤ y) : 11 / 10 * (minNormal f : ℝ) ≤ Real.exp y := by
  refine le_trans ?_ (Real.exp_le_exp.2 h)
  have hE : Real.exp (-((expMin f.ty : ℝ) + 1)) = (Real.exp 1 ^ (expMin f.ty + 1))⁻¹ := by
    rw [Real.exp_neg, ← Real.exp_nat_mul, mul_one]; push_cast; rfl
  rw [hE]
  have h1 := (Rat.cast_le (K := ℝ)).2 (expMin_ok f)
  push_cast at h1
  have hp : 0 < Real.exp 1 ^ (expMin f.ty + 1) := pow_pos (Real.exp_pos 1) _
  rw [← one_div, le_div_iff₀ hp]
  refine le_trans (mul_le_mul_of_nonneg_left (pow_le_pow_left₀ (Real.exp_pos 1).le Real.exp_one_lt_d9.le _) ?_) (le_trans (le_of_eq ?_) h1)
  · have : (0:ℝ) ≤ minNormal f := by exact_mod_cast (minNormal_pos f).le
    positivity
  · congr 2; norm_num

theorem RelR.inv {r y a : ℝ} (h : RelR r y a) (hy : 0 < y) (ha : a ≤ 1 / 1001) :
    RelR (1 / r) (1 / y) (1001 / 1000 * a) := by
  have ha0 := h.nonneg hy
  have hr := h.pos hy (by linarith)
  have h1 := h.ge
  unfold RelR at *
  have e : 1 / r - 1 / y = -((r - y) * (1 / (r * y))) := by field_simp; ring
  rw [e, abs_neg, abs_mul, abs_of_pos (show 0 < 1 / (r * y) by positivity)]
  refine (mul_le_mul_of_nonneg_right h (by positivity)).trans ?_
  rw [mul_one_div, mul_one_div, div_le_div_iff₀ (by positivity) hy]
  have : y ≤ 1001 / 1000 * r := by nlinarith
  calc a * y * y = (a * y) * y := by ring
    _ ≤ (a * y) * (1001 / 1000 * r) := mul_le_mul_of_nonneg_left this (by positivity)
    _ = _ := by ring

theorem nov_big {q : ℚ} (h : |q| ≤ 3 / 4 * pow2 f.emax) : overflows f (rnd f q) = false := by
  have h0 := pow2_pos f.emax
  have e : (3 / 4 * pow2 f.emax : ℚ) = ((3 : ℤ) : ℚ) * pow2 (f.emax - 2) := by
    rw [pow2_sub]; norm_num [pow2_eq]; ring
  refine nov_of_lt (r := 3 / 4 * pow2 f.emax) ?_ ?_ ?_
  · rw [e]
    refine rep_of_scaled ?_ ?_
    · exact le_trans (by norm_num) (two_pow_prec f)
    · rcases f with ⟨⟨⟩, ⟨⟩⟩ <;> decide
  · rw [overflows_false_iff]; right; rw [abs_of_pos (by positivity)]; linarith
  · rw [abs_of_pos (show 0 < 3 / 4 * pow2 f.emax by positivity)]; exact h

theorem pow_E (w : ℤ) (h1 : -11355 ≤ w) (h2 : w ≤ 11356) :
    ∃ p z, pow_integral_llint (L GCEM_E : FV x87) w = fin p z ∧ 0 < p ∧
      RelR (p : ℝ) (Real.exp w) (1003 / 1000 * ((2 * |(w : ℝ)| + 1) * uro x87)) := by
  rcases le_or_gt 0 w with h | h
  · obtain ⟨n, rfl⟩ := Int.eq_ofNat_of_zero_le h
    obtain ⟨p, z, e1, e2, e3, e4⟩ := pow_E_nonneg n (by omega)
    refine ⟨p, z, e1, e2, ?_⟩
    have hn : (n : ℝ) ≤ 11356 := by exact_mod_cast h2
    have hu := uro_pos_real x87
    have := relR_of_pow (Real.exp_pos n) hu.le (m := 2 * n) (by rw [u87]; push_cast; norm_num; linarith) e3 e4
    push_cast at this ⊢
    refine this.mono (Real.exp_pos _) ?_
    rw [abs_of_nonneg (by positivity)]
    have : (0:ℝ) ≤ n * uro x87 := by positivity
    linarith
  · obtain ⟨n, hn⟩ := Int.eq_ofNat_of_zero_le (show 0 ≤ -w by omega)
    obtain rfl : w = -(n:ℤ) := by omega
    obtain ⟨p, z, e1, e2, e3, e4⟩ := pow_E_nonneg n (by omega)
    have hn : (n : ℝ) ≤ 11355 := by exact_mod_cast (show n ≤ 11355 by omega)
    have hu := uro_pos_real x87
    have hr := relR_of_pow (Real.exp_pos n) hu.le (m := 2 * n) (by rw [u87]; push_cast; norm_num; linarith) e3 e4
    have hr2 := hr.inv (Real.exp_pos _) (by rw [u87]; push_cast; norm_num; linarith)
    have hE : 1 / Real.exp n = Real.exp ((-(n:ℤ) : ℤ) : ℝ) := by push_cast; rw [Real.exp_neg, one_div]
    rw [hE] at hr2
    have hlow := le_exp_of (f := x87) (y := ((-(n:ℤ) : ℤ) : ℝ)) (by push_cast [expMin]; linarith)
    have hmn : (0:ℝ) < minNormal x87 := by exact_mod_cast minNormal_pos x87
    have hge := hr2.ge
    have hnorm : minNormal x87 ≤ |1 / p| := by
      have h3 : (minNormal x87 : ℝ) ≤ 1 / (p : ℝ) := by
        refine le_trans ?_ hge
        have : (10 / 11 : ℝ) ≤ 1 - 1001 / 1000 * (1001 / 1000 * (((2 * n : ℕ) : ℝ) * uro x87)) := by
          rw [u87]; push_cast; norm_num; linarith
        calc (minNormal x87 : ℝ) = 10 / 11 * (11 / 10 * minNormal x87) := by ring
          _ ≤ _ := mul_le_mul this hlow (mul_nonneg (by norm_num) hmn.le) (by linarith)
      rw [abs_of_pos (by positivity)]
      have : (minNormal x87 : ℝ) ≤ ((1 / p : ℚ) : ℝ) := by push_cast; exact h3
      exact_mod_cast this
    have hrr := RelR.round (f := x87) (q := 1 / p) (by push_cast; exact hr2) (Real.exp_pos _) hnorm
    have hp1 : (1:ℚ) / p ≤ 2 := by
      have h3 : 1 / (p : ℝ) ≤ 2 := by
        refine hr2.le.trans ?_
        have : Real.exp ((-(n:ℤ) : ℤ) : ℝ) ≤ 1 := Real.exp_le_one_iff.2 (by push_cast; linarith [Nat.cast_nonneg (α := ℝ) n])
        have h5 : 1 + 1001 / 1000 * (1001 / 1000 * (((2 * n : ℕ) : ℝ) * uro x87)) ≤ 2 := by
          rw [u87]; push_cast; norm_num; linarith
        have := Real.exp_pos ((-(n:ℤ) : ℤ) : ℝ)
        nlinarith
      have : ((1 / p : ℚ) : ℝ) ≤ (2:ℚ) := by push_cast; exact h3
      exact_mod_cast this
    have hdiv := Is.div (f := x87) (is_i (n := 1) (by norm_num)) (is_fin p z) e2.ne'
      (nov (by rw [abs_of_pos (by positivity)]; push_cast; linarith))
    have he : pow_integral_llint (L GCEM_E : FV x87) (-(n:ℤ)) = i 1 / fin p z := by
      rw [← e1]
      unfold pow_integral_llint pow_integral_compute
      rw [if_pos h, if_neg (by omega), if_neg (by omega)]
      simp
    obtain ⟨z', hz'⟩ := hdiv
    push_cast at hz'
    have hrr' : RelR ((rnd x87 (1 / p) : ℚ) : ℝ) (Real.exp ((-(n:ℤ) : ℤ) : ℝ)) (1003 / 1000 * ((2 * |((-(n:ℤ) : ℤ) : ℝ)| + 1) * uro x87)) := by
      refine hrr.mono (Real.exp_pos _) ?_
      push_cast
      rw [abs_neg, abs_of_nonneg (Nat.cast_nonneg n), u87]
      norm_num
      nlinarith [Nat.cast_nonneg (α := ℝ) n]
    refine ⟨_, z', by rw [he, hz'], ?_, hrr'⟩
    have : (0:ℝ) < (rnd x87 (1 / p) : ℚ) := hrr'.pos (Real.exp_pos _) (by
      push_cast; rw [abs_neg, abs_of_nonneg (Nat.cast_nonneg n), u87]; norm_num; linarith)
    exact_mod_cast this

/-! ## The whole range -/

/-- C33: for every floating type and every value `x` with `-expMin ≤ x ≤ expMax` (float: `[-86, 88]`,
double: `[-707, 709]`, long double: `[-11354, 11356]`; outside of these `e^x` is within a factor `e^2` of
the subnormal numbers or of the largest finite value) `exp(x)` is a positive finite value and its relative
error is at most `104 u + (|x| + 7) 2^-62`, `u` the unit roundoff of the type. -/
theorem C33_accuracy (hf : f.exact = false) (q : ℚ) (z : Bool) (hx : Valid (fin q z : FV f))
    (h1 : -(expMin f.ty : ℚ) ≤ q) (h2 : q ≤ expMax f.ty) :
    ∃ r, exp (fin q z : FV f) = .ok (fin r false) ∧ 0 < r ∧
      |(r : ℝ) - Real.exp q| ≤ (104 * (1 / 2 ^ f.prec) + (|(q : ℝ)| + 7) * (1 / 2 ^ 62)) * Real.exp q := by
  have hEq := Real.exp_pos (q : ℝ)
  rcases lt_or_ge |q| 2 with h | h
  · obtain ⟨r, e1, e2, e3⟩ := C33_direct_range (f := f) q z h
    refine ⟨r, e1, e2, e3.trans (mul_le_mul_of_nonneg_right ?_ hEq.le)⟩
    have := abs_nonneg (q : ℝ)
    have hu := uro_pos_real f
    rw [uro_eq] at hu
    generalize (1 : ℝ) / 2 ^ f.prec = u at *
    norm_num
    linarith
  have hld : f.ldbl = x87 := by rcases f with ⟨_, _⟩; cases hf; rfl
  obtain ⟨-, b1, b2⟩ := wholeOf_bounds q
  have hM : expMin f.ty ≤ 11354 ∧ expMax f.ty ≤ 11356 := by rcases f with ⟨⟨⟩, _⟩ <;> simp [expMin, expMax]
  have w1 : -((expMin f.ty : ℤ) + 1) ≤ wholeOf q := by
    have : (-((expMin f.ty : ℤ) + 2 : ℤ) : ℚ) < wholeOf q := by push_cast; linarith
    have : -((expMin f.ty : ℤ) + 2) < wholeOf q := by exact_mod_cast this
    omega
  have w2 : wholeOf q ≤ expMax f.ty := by
    have : (wholeOf q : ℚ) < ((expMax f.ty + 1 : ℤ) : ℚ) := by push_cast; linarith
    have : wholeOf q < (expMax f.ty + 1 : ℤ) := by exact_mod_cast this
    omega
  obtain ⟨w, hw⟩ := exp_large_ok hf hx h (by constructor <;> omega)
  rw [hw, hld]
  obtain ⟨p, zp, p1, p2, p3⟩ := pow_E (wholeOf q) (by omega) (by omega)
  rw [p1]
  generalize hW : wholeOf q = W at *
  have hfr : |q - W| ≤ 2 := by rw [abs_le]; constructor <;> linarith
  obtain ⟨c, c1, c2, c3, c4⟩ := exp_cf_rel (f := f) (z := w) hfr
  rw [c1]
  have hEW := Real.exp_pos (W : ℝ)
  have hwr1 : -((expMin f.ty : ℝ) + 1) ≤ W := by exact_mod_cast w1
  have hwr2 : (W : ℝ) ≤ expMax f.ty := by exact_mod_cast w2
  have lo1 := le_exp_of (f := f) hwr1
  have hi1 := exp_le_of (f := f) hwr2
  have hmn : (0:ℝ) < minNormal f := by exact_mod_cast minNormal_pos f
  have hqr1 : -((expMin f.ty : ℝ) + 1) ≤ q := by
    have := (Rat.cast_le (K := ℝ)).2 h1; push_cast at this; linarith
  have hqr2 : (q : ℝ) ≤ expMax f.ty := by
    have := (Rat.cast_le (K := ℝ)).2 h2; push_cast at this; linarith
  have lo2 := le_exp_of (f := f) hqr1
  have hi2 := exp_le_of (f := f) hqr2
  have hEpos : (0:ℝ) < pow2 f.emax := by exact_mod_cast pow2_pos f.emax
  -- |W| ≤ |q| + 2
  have hWq : |(W : ℝ)| ≤ |(q : ℝ)| + 2 := by
    have : |(W : ℚ)| ≤ |q| + 2 := by
      have := abs_sub_abs_le_abs_sub (W : ℚ) q
      rw [abs_sub_comm] at this; linarith
    have := (Rat.cast_le (K := ℝ)).2 this; push_cast at this; exact this
  have hWb : |(W : ℝ)| ≤ 11356 := by
    have : |W| ≤ 11356 := by rw [abs_le]; constructor <;> omega
    exact_mod_cast this
  have hqW : Real.exp (W : ℝ) * Real.exp ((q - W : ℚ) : ℝ) = Real.exp q := by
    rw [← Real.exp_add]; push_cast; congr 1; ring
  have hu := uro_pos_real f
  have hu1 := uro_le f
  have hW0 := abs_nonneg (W : ℝ)
  rw [u87] at p3
  obtain ⟨t, ht⟩ : ∃ t, t = 1003 / 1000 * ((2 * |(W : ℝ)| + 1) * (1 / 2 ^ 64)) := ⟨_, rfl⟩
  rw [← ht] at p3
  have t0 : 0 ≤ t := by rw [ht]; positivity
  have t1 : t ≤ 1 / 10 ^ 14 := by rw [ht]; norm_num; linarith
  have t2 : t ≤ 1003 / 1000 * ((2 * |(q : ℝ)| + 5) * (1 / 2 ^ 64)) := by rw [ht]; norm_num; linarith
  -- the power in the type of the argument
  have pr : (0:ℝ) < p := by exact_mod_cast p2
  have n1 : minNormal f ≤ |p| := by
    rw [abs_of_pos p2]
    have : (minNormal f : ℝ) ≤ p := by
      have := p3.ge
      nlinarith
    exact_mod_cast this
  have o1 : |p| ≤ 3 / 4 * pow2 f.emax := by
    rw [abs_of_pos p2]
    have : (p : ℝ) ≤ ((3 / 4 * pow2 f.emax : ℚ) : ℝ) := by
      have := p3.le
      push_cast
      nlinarith
    exact_mod_cast this
  obtain ⟨zc, hcast⟩ := (is_fin (f := x87) p zp).cast (g := f) (nov_big o1)
  have r1 := p3.round (f := f) hEW n1
  rw [hcast]
  -- the product
  have r2 := r1.mul c4 hEW (Real.exp_pos _)
  rw [hqW] at r2
  generalize rnd f p = p' at *
  obtain ⟨s, hs⟩ : ∃ s, s = t + (uro f : ℝ) + t * uro f + (1012 / 10 * (uro f : ℝ) + 11 / 10 ^ 19) +
      (t + (uro f : ℝ) + t * uro f) * (1012 / 10 * (uro f : ℝ) + 11 / 10 ^ 19) := ⟨_, rfl⟩
  rw [← hs] at r2
  have tu : t * (uro f : ℝ) ≤ 1 / 10 ^ 14 * uro f := mul_le_mul_of_nonneg_right t1 hu.le
  have tu0 : 0 ≤ t * (uro f : ℝ) := by positivity
  have hs1 : s ≤ 10221 / 100 * (uro f : ℝ) + 1001 / 1000 * t + 12 / 10 ^ 19 := by
    have a1 : t + (uro f : ℝ) + t * uro f ≤ 2 / 16777216 := by nlinarith
    have a2 : (t + (uro f : ℝ) + t * uro f) * (1012 / 10 * (uro f : ℝ) + 11 / 10 ^ 19) ≤
        2 / 16777216 * (1012 / 10 * (uro f : ℝ) + 11 / 10 ^ 19) := mul_le_mul_of_nonneg_right a1 (by positivity)
    rw [hs]
    linarith
  have hs0 : 0 ≤ s := r2.nonneg hEq
  have hs2 : s ≤ 1 / 1000 := by linarith
  have q0 : 0 < p' * c := by
    have : (0:ℝ) < (p' : ℝ) * c := r2.pos hEq (by linarith)
    exact_mod_cast this
  have n2 : minNormal f ≤ |p' * c| := by
    rw [abs_of_pos q0]
    have : (minNormal f : ℝ) ≤ ((p' * c : ℚ) : ℝ) := by
      have := r2.ge
      push_cast
      nlinarith
    exact_mod_cast this
  have o2 : |p' * c| ≤ 3 / 4 * pow2 f.emax := by
    rw [abs_of_pos q0]
    have : ((p' * c : ℚ) : ℝ) ≤ ((3 / 4 * pow2 f.emax : ℚ) : ℝ) := by
      have := r2.le
      push_cast
      nlinarith
    exact_mod_cast this
  have r3 := RelR.round (f := f) (q := p' * c) (by push_cast; exact r2) hEq n2
  have hpos : (0:ℝ) < (rnd f (p' * c) : ℚ) := r3.pos hEq (by nlinarith)
  have hpos' : 0 < rnd f (p' * c) := by exact_mod_cast hpos
  have hm := Is.mul (is_fin (f := f) p' zc) (is_fin c false) (nov_big o2)
  obtain ⟨zm, hm⟩ := hm
  have hv : Valid ((fin p' zc : FV f) * fin c false) := valid_mul _ _
  rw [hm] at hv ⊢
  have := hv.z_false hpos'.ne'
  subst this
  refine ⟨_, rfl, hpos', r3.mono hEq ?_⟩
  rw [← uro_eq]
  have su : s * (uro f : ℝ) ≤ 1 / 1000 * uro f := mul_le_mul_of_nonneg_right hs2 hu.le
  have hq0 := abs_nonneg (q : ℝ)
  generalize |(q : ℝ)| = Q at *
  generalize (uro f : ℝ) = u at *
  norm_num at *
  linarith

example : ∃ r, exp (fin (2001 / 2) false : FV x87) = .ok (fin r false) ∧ 0 < r ∧
    |(r : ℝ) - Real.exp (2001 / 2 : ℚ)| ≤ (104 * (1 / 2 ^ 64) + (2001 / 2 + 7) * (1 / 2 ^ 62)) * Real.exp (2001 / 2 : ℚ) := by
  have := C33_accuracy (f := x87) rfl (2001 / 2) false (by decide +kernel) (by norm_num [expMin]) (by norm_num [expMax])
  have e : |((2001 / 2 : ℚ) : ℝ)| = 2001 / 2 := by push_cast; exact abs_of_pos (by norm_num)
  rwa [e] at this

/-- the computed value and its size at a point of the split range: `exp(-20.5)`, where the split is
`-22 + 1.5` -/
example : exp (fin (-41 / 2) false : FV binary64) = .ok (fin (1511342078640171 / 1208925819614629174706176) false) := by decide +kernel

/-! ## C32: exact arithmetic -/

theorem expR_pos_all {x : ℚ} (hx : |x| ≤ 2) (k : ℕ) (hk : k ≤ 23) : 0 < expR x k := by
  obtain ⟨h1, h2⟩ := abs_le.1 hx
  rcases le_total 0 x with h | h
  · linarith [(expR_pos h k hk).1]
  · rcases Nat.lt_or_ge k 22 with hk2 | hk2
    · have := (expR_neg h h1 k (by omega)).1
      have hk' : (k : ℚ) ≤ 21 := by exact_mod_cast (by omega : k ≤ 21)
      have k2 : (3:ℚ) ≤ 24 - k := by linarith
      have k3 : (4:ℚ) ≤ 25 - k := by linarith
      have : -1 / 2 ≤ x / ((24 - k) * (25 - k)) := by
        rw [le_div_iff₀ (by positivity)]; nlinarith
      linarith
    · rcases Nat.lt_or_ge k 23 with hk3 | hk3
      · obtain rfl : k = 22 := by omega
        linarith [(expR_neg_22 h h1).1]
      · obtain rfl : k = 23 := by omega
        linarith [(expR_neg_23 h h1).1]

theorem exp_cf_exact (hf : f.exact = true) {x : ℚ} {z : Bool} (hx : |x| ≤ 2) :
    Is (exp_cf (fin x z : FV f)) (expCf x) := by
  have o1 : Is (i 1 : FV f) 1 := by simpa using is_ix (f := f) hf 1
  have loop : Is (exp_cf_recur (fin x z : FV f) 2) (expR x 23) := by
    unfold exp_cf_recur
    have := whileDown_inv (exp_cf_step (fin x z : FV f)) 1 (fun d v => d ≤ 24 ∧ Is v (expR x (24 - d))) ?_ 24 (i 1)
      (by norm_num) ⟨by norm_num, by simpa [expR] using o1⟩
    · exact this.2
    · rintro d v hd ⟨hd', hv⟩
      refine ⟨by omega, ?_⟩
      obtain ⟨k, hk⟩ : ∃ k, k = 24 - (d + 1) := ⟨_, rfl⟩
      rw [← hk] at hv
      have h24 : 24 - d = k + 1 := by omega
      have hp := expR_pos_all hx k (by omega)
      have d1 : (1:ℚ) ≤ d := by exact_mod_cast hd
      have hkq : (k : ℚ) = 23 - d := by
        have : (k + d : ℕ) = 23 := by omega
        have : ((k + d : ℕ) : ℚ) = 23 := by rw [this]; norm_num
        push_cast at this; linarith
      have a1 := o1.addx hf ((is_fin (f := f) x z).divx hf (is_ix hf (((d + 1 : ℕ) : ℤ) - 1)) (by push_cast; linarith))
      have a2 := ((is_fin (f := f) x z).divx hf (is_ix hf ((d + 1 : ℕ) : ℤ)) (by push_cast; linarith)).divx hf hv hp.ne'
      have a3 := a1.subx hf a2
      rw [h24, expR]
      unfold exp_cf_step
      have e : 1 + x / ((((d + 1 : ℕ) : ℤ) - 1 : ℤ) : ℚ) - x / (((d + 1 : ℕ) : ℤ) : ℚ) / expR x k
          = 1 + x / (23 - (k : ℚ)) - x / (24 - (k : ℚ)) / expR x k := by
        rw [hkq]; push_cast; congr 3 <;> ring
      rw [← e]; exact a3
  have hp := expR_pos_all hx 23 le_rfl
  have hs := o1.subx hf ((is_fin (f := f) x z).divx hf loop hp.ne')
  obtain ⟨hT, -⟩ := exp_cf_err (f := f) (z := z) hx
  unfold expCf at hT ⊢
  exact o1.divx hf hs (by intro h; rw [h] at hT; simp at hT)

/-- C32: in exact arithmetic `exp(x)` for `|x| < 2` differs from `e^x` by at most `1e-18` relative. -/
theorem C32_truncation (hf : f.exact = true) (x : ℚ) (z : Bool) (hx : |x| < 2) :
    ∃ r w, exp (fin x z : FV f) = .ok (fin r w) ∧ |(r : ℝ) - Real.exp x| ≤ 1 / 10 ^ 18 * Real.exp x := by
  rcases lt_or_ge |x| (minNormal f) with h | h
  · refine ⟨1, false, exp_tiny h, ?_⟩
    have hq : |(x : ℝ)| ≤ 1 / 10 ^ 30 := by
      have h1 : |x| ≤ 1 / 10 ^ 30 := by
        refine h.le.trans ((minNormal_le f).trans ?_)
        have : pow2 (-126) = 1 / 2 ^ 126 := by rw [pow2_eq]; norm_num
        rw [this]; norm_num
      have h2 := (Rat.cast_le (K := ℝ)).2 h1
      push_cast at h2; exact h2
    have h1 := Real.abs_exp_sub_one_le (x := (x : ℝ)) (by linarith)
    have hE : 1 / 2 ≤ Real.exp (x : ℝ) := by have := (abs_le.1 h1).1; linarith
    rw [Rat.cast_one, abs_sub_comm]
    linarith
  · obtain ⟨w, hw⟩ := exp_cf_exact (f := f) hf (z := z) hx.le
    exact ⟨expCf x, w, by rw [exp_mid h hx, hw], expCf_trunc hx.le⟩

/-- the exact-arithmetic value at `x = 1` agrees with `e` to more than 25 digits -/
example : exp_cf (fin 1 false : FV ⟨.double, true⟩) = fin (expCf 1) false ∧
    |expCf 1 - 2718281828459045235360287 / 10 ^ 24| < 1 / 10 ^ 23 := by decide +kernel

end Gcem.Props
