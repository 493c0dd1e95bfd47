import Verif.Props.Pow
import Verif.Fp.Err
import Mathlib.Analysis.SpecialFunctions.Log.Deriv
import Mathlib.Analysis.Complex.Exponential

/-!
# C34, C39: expm1 and log1p are accurate to two roundings for `|x| ≤ 1e-4`
-/

namespace Gcem.Props
open Gcem FV
variable {f : Fmt}

theorem rnd_err_self (hf : f.exact = false) (y : ℚ) : |rnd f y - y| ≤ |y| := by
  have hu := uro_pos f
  have hu1 := uro_lt_half f
  have hy := abs_nonneg y
  rcases lt_or_ge |y| (pow2 f.emin / 2) with h | h
  · rw [rnd_tiny hf h, zero_sub, abs_neg]
  · rcases lt_or_ge |y| (minNormal f) with h2 | h2
    · by_cases hy0 : y = 0
      · rw [hy0, rnd_zero]; simp
      refine (rnd_err_ulp y hy0).trans ?_
      have : fexp f y = f.emin := by
        unfold fexp
        have := (ilog2_lt_iff hy0).2 (by unfold minNormal at h2; exact h2)
        omega
      rw [this]; exact h
    · refine (rnd_err_rel h2).trans ?_
      nlinarith

/-- rounding a value known up to `c u A` and of size at most `b A`, where `A` is at least the least normal -/
theorem rnd_unit {A y y0 c b c' : ℚ} (hA : minNormal f ≤ A) (h : |y - y0| ≤ c * (uro f * A)) (hb : |y0| ≤ b * A)
    (c0 : 0 ≤ c) (c1 : c ≤ 10) (hc : c + b + 1001 / 1000 ≤ c') : |rnd f y - y0| ≤ c' * (uro f * A) := by
  have hu := uro_pos f
  have hu1 := uro_lt_half f
  have hmn := minNormal_pos f
  have e := rnd_err_all (f := f) y
  have e2 : pow2 f.emin / 2 = uro f * minNormal f := by
    unfold uro minNormal
    rw [← pow2_add, show -(f.prec:ℤ) + (f.emin + f.prec - 1) = f.emin - 1 by ring, pow2_sub]
    norm_num [pow2_eq]
  rw [e2] at e
  have hy : |y| ≤ c * (uro f * A) + b * A := by
    calc |y| = |(y - y0) + y0| := by ring_nf
      _ ≤ _ := (abs_add_le _ _).trans (add_le_add h hb)
  have h3 : uro f * |y| ≤ uro f * (c * (uro f * A) + b * A) := mul_le_mul_of_nonneg_left hy hu.le
  have h4 : uro f * minNormal f ≤ uro f * A := mul_le_mul_of_nonneg_left hA hu.le
  have h5 : uro f * (c * (uro f * A)) ≤ 1 / 1000 * (uro f * A) := by
    have : 0 ≤ uro f * A := mul_nonneg hu.le (by linarith)
    calc uro f * (c * (uro f * A)) = (uro f * c) * (uro f * A) := by ring
      _ ≤ _ := mul_le_mul_of_nonneg_right (by nlinarith) this
  have h6 : 0 ≤ uro f * A := mul_nonneg hu.le (by linarith)
  calc |rnd f y - y0| = |(rnd f y - y) + (y - y0)| := by ring_nf
    _ ≤ |rnd f y - y| + |y - y0| := abs_add_le _ _
    _ ≤ (c + b + 1001 / 1000) * (uro f * A) := by nlinarith
    _ ≤ _ := mul_le_mul_of_nonneg_right hc h6

/-- the polynomial shape shared by `expm1_compute` and `log1p_compute` -/
def smallPoly (x a : FV f) (n2 n3 n4 n5 : ℤ) : FV f :=
  x + x * (a / i n2 + x * (x / i n3 + x * (a / i n4 + x * x / i n5)))

theorem div_abs_le {q n c : ℚ} (hn : 2 ≤ n) (h : |q| ≤ c) : |q / n| ≤ c / 2 := by
  rw [abs_div, abs_of_pos (show 0 < n by linarith)]
  have : 0 ≤ c := (abs_nonneg q).trans h
  calc |q| / n ≤ c / n := by gcongr
    _ ≤ c / 2 := by gcongr

theorem small_inner {q a : ℚ} {z : Bool} {va : FV f} (ha : Is va a) (haq : |a| = |q|) (h1 : |q| ≤ 1 / 9999)
    (hq : minNormal f ≤ |q|) (n2 n3 n4 n5 : ℤ) (h2 : 2 ≤ n2 ∧ n2 ≤ 120) (h3 : 2 ≤ n3 ∧ n3 ≤ 120)
    (h4 : 2 ≤ n4 ∧ n4 ≤ 120) (h5 : 2 ≤ n5 ∧ n5 ≤ 120) :
    ∃ s, Is (va / i n2 + fin q z * (fin q z / i n3 + fin q z * (va / i n4 + fin q z * fin q z / i n5)) : FV f) s ∧
      |s - (a / n2 + q * (q / n3 + q * (a / n4 + q * q / n5)))| ≤ 5 * (uro f * |q|) := by
  have hu := uro_pos f
  have hu1 := uro_lt_half f
  have hmn := minNormal_pos f
  have hx := is_fin (f := f) q z
  have I : ∀ n : ℤ, 2 ≤ n ∧ n ≤ 120 → Is (i n : FV f) n ∧ (2:ℚ) ≤ n := fun n h =>
    ⟨is_i (by rw [abs_of_pos (by omega)]; omega), by exact_mod_cast h.1⟩
  obtain ⟨i2, r2⟩ := I n2 h2
  obtain ⟨i3, r3⟩ := I n3 h3
  obtain ⟨i4, r4⟩ := I n4 h4
  obtain ⟨i5, r5⟩ := I n5 h5
  clear I
  generalize (n2:ℚ) = m2 at *
  generalize (n3:ℚ) = m3 at *
  generalize (n4:ℚ) = m4 at *
  generalize (n5:ℚ) = m5 at *
  set A := |q| with hA
  have A0 : 0 < A := lt_of_lt_of_le hmn hq
  have U0 : 0 < uro f * A := by positivity
  have UA : uro f * A ≤ 1 / 1000000 * A := mul_le_mul_of_nonneg_right (by linarith) A0.le
  set U := uro f * A with hU
  have small : ∀ {y y0 c b c' : ℚ}, |y - y0| ≤ c * U → |y0| ≤ b * A → 0 ≤ c → c ≤ 10 → b ≤ 1 → c + b + 1001 / 1000 ≤ c' →
      overflows f (rnd f y) = false ∧ |rnd f y - y0| ≤ c' * U := by
    intro y y0 c b c' p1 p2 p3 p4 p5 p6
    refine ⟨nov ?_, rnd_unit hq p1 p2 p3 p4 p6⟩
    calc |y| = |(y - y0) + y0| := by ring_nf
      _ ≤ |y - y0| + |y0| := abs_add_le _ _
      _ ≤ c * U + b * A := add_le_add p1 p2
      _ ≤ 1 := by nlinarith
      _ ≤ _ := by norm_num
  have mulq : ∀ {s s0 c b : ℚ}, |s - s0| ≤ c * U → |s0| ≤ b * A → 0 ≤ c → 0 ≤ b → c ≤ 10 → b ≤ 1 →
      |q * s - q * s0| ≤ 1 / 900 * U ∧ |q * s0| ≤ 1 / 9999 * A := by
    intro s s0 c b p1 p2 p3 p3' p4 p5
    rw [← mul_sub, abs_mul, abs_mul, ← hA]
    constructor
    · calc A * |s - s0| ≤ 1 / 9999 * (c * U) := mul_le_mul h1 p1 (abs_nonneg _) (by norm_num)
        _ ≤ _ := by nlinarith
    · calc A * |s0| ≤ 1 / 9999 * (b * A) := mul_le_mul h1 p2 (abs_nonneg _) (by norm_num)
        _ ≤ _ := by nlinarith
  -- a / n4
  have b4 := div_abs_le r4 haq.le
  obtain ⟨o4, e4⟩ := small (y := a / m4) (y0 := a / m4) (c := 0) (b := 1 / 2) (c' := 3 / 2 + 1 / 100) (by simp) (by linarith) le_rfl
    (by norm_num) (by norm_num) (by norm_num)
  have v4 := ha.div i4 (by linarith) o4
  -- x * x / n5
  have bq : |q * q| ≤ 1 / 9999 * A := by rw [abs_mul, ← hA]; exact mul_le_mul_of_nonneg_right h1 A0.le
  obtain ⟨os, es⟩ := small (y := q * q) (y0 := q * q) (c := 0) (b := 1 / 9999) (c' := 11 / 10) (by simp) bq le_rfl
    (by norm_num) (by norm_num) (by norm_num)
  have vs := hx.mul hx os
  have b5 := div_abs_le r5 bq
  have e5' : |rnd f (q * q) / m5 - q * q / m5| ≤ (11 / 20) * U := by
    rw [← sub_div]
    refine (div_abs_le r5 es).trans (by linarith)
  obtain ⟨o5, e5⟩ := small (c' := 16 / 10) e5' (b := 1 / 9999) (b5.trans (by linarith)) (by norm_num) (by norm_num) (by norm_num) (by norm_num)
  have v5 := vs.div i5 (by linarith) o5
  -- sum S3
  have e3' : |rnd f (a / m4) + rnd f (rnd f (q * q) / m5) - (a / m4 + q * q / m5)| ≤ (312 / 100) * U := by
    calc _ = |(rnd f (a / m4) - a / m4) + (rnd f (rnd f (q * q) / m5) - q * q / m5)| := by ring_nf
      _ ≤ _ := (abs_add_le _ _).trans (by linarith)
  have b3 : |a / m4 + q * q / m5| ≤ 51 / 100 * A := (abs_add_le _ _).trans (by linarith)
  obtain ⟨o3, e3⟩ := small (c' := 5) e3' b3 (by norm_num) (by norm_num) (by norm_num) (by norm_num)
  have v3 := v4.add v5 o3
  clear e3' e5' e4 es e5 b4 b5 bq o4 os o5 v4 v5 vs
  generalize rnd f (rnd f (a / m4) + rnd f (rnd f (q * q) / m5)) = S3 at *
  generalize a / m4 + q * q / m5 = T3 at *
  -- x * S3
  obtain ⟨p1, p2⟩ := mulq e3 b3 (by norm_num) (by norm_num) (by norm_num) (by norm_num)
  obtain ⟨ox, ex⟩ := small (c' := 11 / 10) p1 p2 (by norm_num) (by norm_num) (by norm_num) (by norm_num)
  have vx := hx.mul v3 ox
  have b2 := div_abs_le r3 (le_refl |q|)
  obtain ⟨o2, e2⟩ := small (y := q / m3) (y0 := q / m3) (c := 0) (b := 1 / 2) (c' := 3 / 2 + 1 / 100) (by simp) (by linarith) le_rfl
    (by norm_num) (by norm_num) (by norm_num)
  have v2 := hx.div i3 (by linarith) o2
  have eS' : |rnd f (q / m3) + rnd f (q * S3) - (q / m3 + q * T3)| ≤ (262 / 100) * U := by
    calc _ = |(rnd f (q / m3) - q / m3) + (rnd f (q * S3) - q * T3)| := by ring_nf
      _ ≤ _ := (abs_add_le _ _).trans (by linarith)
  have bS : |q / m3 + q * T3| ≤ 51 / 100 * A := (abs_add_le _ _).trans (by linarith)
  obtain ⟨oS, eS⟩ := small (c' := 5) eS' bS (by norm_num) (by norm_num) (by norm_num) (by norm_num)
  have vS := v2.add vx oS
  clear eS' e2 ex e3 b3 p1 p2 ox vx b2 o2 v2 v3 o3
  generalize rnd f (rnd f (q / m3) + rnd f (q * S3)) = S2 at *
  generalize q / m3 + q * T3 = T2 at *
  obtain ⟨p1, p2⟩ := mulq eS bS (by norm_num) (by norm_num) (by norm_num) (by norm_num)
  obtain ⟨ox, ex⟩ := small (c' := 11 / 10) p1 p2 (by norm_num) (by norm_num) (by norm_num) (by norm_num)
  have vx := hx.mul vS ox
  have b2 := div_abs_le r2 haq.le
  obtain ⟨o2, e2⟩ := small (y := a / m2) (y0 := a / m2) (c := 0) (b := 1 / 2) (c' := 3 / 2 + 1 / 100) (by simp) (by linarith) le_rfl
    (by norm_num) (by norm_num) (by norm_num)
  have v2 := ha.div i2 (by linarith) o2
  have eS' : |rnd f (a / m2) + rnd f (q * S2) - (a / m2 + q * T2)| ≤ (262 / 100) * U := by
    calc _ = |(rnd f (a / m2) - a / m2) + (rnd f (q * S2) - q * T2)| := by ring_nf
      _ ≤ _ := (abs_add_le _ _).trans (by linarith)
  have bS' : |a / m2 + q * T2| ≤ 51 / 100 * A := (abs_add_le _ _).trans (by linarith)
  obtain ⟨oS', eS''⟩ := small (c' := 5) eS' bS' (by norm_num) (by norm_num) (by norm_num) (by norm_num)
  exact ⟨_, v2.add vx oS', eS''⟩

/-- below the least normal the correction underflows to zero -/
theorem small_inner_sub (hf : f.exact = false) {q a : ℚ} {z : Bool} {va : FV f} (ha : Is va a) (haq : |a| = |q|)
    (hq : |q| < minNormal f) (n2 n3 n4 n5 : ℤ) (h2 : 2 ≤ n2 ∧ n2 ≤ 120) (h3 : 2 ≤ n3 ∧ n3 ≤ 120)
    (h4 : 2 ≤ n4 ∧ n4 ≤ 120) (h5 : 2 ≤ n5 ∧ n5 ≤ 120) :
    ∃ s, Is (va / i n2 + fin q z * (fin q z / i n3 + fin q z * (va / i n4 + fin q z * fin q z / i n5)) : FV f) s ∧
      |s| ≤ minNormal f := by
  have hmn := minNormal_pos f
  have hmu : minNormal f ≤ 1 / 1000 := by
    have h : minNormal f ≤ pow2 (-10) := pow2_le (by rcases f with ⟨⟨⟩, ⟨⟩⟩ <;> decide)
    have e : pow2 (-10) = 1 / 1024 := by norm_num [pow2_eq]
    linarith
  have hx := is_fin (f := f) q z
  have I : ∀ n : ℤ, 2 ≤ n ∧ n ≤ 120 → Is (i n : FV f) n ∧ (2:ℚ) ≤ n := fun n h =>
    ⟨is_i (by rw [abs_of_pos (by omega)]; omega), by exact_mod_cast h.1⟩
  obtain ⟨i2, r2⟩ := I n2 h2
  obtain ⟨i3, r3⟩ := I n3 h3
  obtain ⟨i4, r4⟩ := I n4 h4
  obtain ⟨i5, r5⟩ := I n5 h5
  clear I
  have rm : ∀ k : ℤ, -2 ≤ k → k ≤ 0 → Rep f (minNormal f * pow2 k) := by
    intro k h1 h2
    unfold minNormal
    rw [← pow2_add]
    apply rep_pow2
    have := prec_pos f
    have : 24 ≤ f.prec := by rcases f with ⟨⟨⟩, ⟨⟩⟩ <;> decide
    omega
  have R0 : Rep f (minNormal f) := by have := rm 0 (by norm_num) le_rfl; rwa [pow2_zero, mul_one] at this
  have R1 : Rep f (minNormal f / 2) := by
    have := rm (-1) (by norm_num) (by norm_num)
    rwa [show pow2 (-1) = 1 / 2 by norm_num [pow2_eq], mul_one_div] at this
  have R2 : Rep f (minNormal f / 4) := by
    have := rm (-2) (by norm_num) (by norm_num)
    rwa [show pow2 (-2) = 1 / 4 by norm_num [pow2_eq], mul_one_div] at this
  clear rm
  have N : ∀ {y M : ℚ}, Rep f M → |y| ≤ M → M ≤ minNormal f → overflows f (rnd f y) = false ∧ |rnd f y| ≤ M :=
    fun hM h h' => ⟨nov (h.trans (h'.trans (hmu.trans (by norm_num)))), abs_rnd_le_of_rep hM h⟩
  set M := minNormal f with hM
  have mulq : ∀ {s : ℚ}, |s| ≤ M → |q * s| ≤ M / 4 := by
    intro s hs
    rw [abs_mul]
    calc |q| * |s| ≤ M * M := mul_le_mul hq.le hs (abs_nonneg _) hmn.le
      _ ≤ _ := by nlinarith
  have b4 := div_abs_le r4 (haq.le.trans hq.le)
  obtain ⟨o4, e4⟩ := N R1 b4 (by linarith)
  have v4 := ha.div i4 (by linarith) o4
  obtain ⟨os, es⟩ := N R2 (mulq hq.le) (by linarith)
  have vs := hx.mul hx os
  obtain ⟨o5, e5⟩ := N R2 ((div_abs_le r5 es).trans (by linarith)) (by linarith)
  have v5 := vs.div i5 (by linarith) o5
  obtain ⟨o3, e3⟩ := N R0 ((abs_add_le _ _).trans (add_le_add e4 e5) |>.trans (by linarith)) le_rfl
  have v3 := v4.add v5 o3
  obtain ⟨ox, ex⟩ := N R2 (mulq e3) (by linarith)
  have vx := hx.mul v3 ox
  obtain ⟨o2, e2⟩ := N R1 (div_abs_le r3 hq.le) (by linarith)
  have v2 := hx.div i3 (by linarith) o2
  obtain ⟨oS, eS⟩ := N R0 ((abs_add_le _ _).trans (add_le_add e2 ex) |>.trans (by linarith)) le_rfl
  have vS := v2.add vx oS
  obtain ⟨ox', ex'⟩ := N R2 (mulq eS) (by linarith)
  have vx' := hx.mul vS ox'
  obtain ⟨o2', e2'⟩ := N R1 (div_abs_le r2 (haq.le.trans hq.le)) (by linarith)
  have v2' := ha.div i2 (by linarith) o2'
  obtain ⟨oS', eS'⟩ := N R0 ((abs_add_le _ _).trans (add_le_add e2' ex') |>.trans (by linarith)) le_rfl
  exact ⟨_, v2'.add vx' oS', eS'⟩

theorem small_tiny_sq (hf : f.exact = false) : minNormal f * minNormal f < pow2 f.emin / 2 := by
  have : minNormal f * minNormal f = pow2 ((f.emin + f.prec - 1) + (f.emin + f.prec - 1)) := by
    unfold minNormal; rw [pow2_add]
  have e : pow2 f.emin / 2 = pow2 (f.emin - 1) := by rw [pow2_sub]; norm_num [pow2_eq]
  rw [this, e]
  apply pow2_lt
  rcases f with ⟨⟨⟩, ⟨⟩⟩ <;> revert hf <;> decide

theorem small_poly {q a : ℚ} {z : Bool} {va : FV f} (hf : f.exact = false) (hv : Valid (fin q z : FV f))
    (ha : Is va a) (haq : |a| = |q|) (h1 : |q| ≤ 1 / 9999)
    (n2 n3 n4 n5 : ℤ) (h2 : 2 ≤ n2 ∧ n2 ≤ 120) (h3 : 2 ≤ n3 ∧ n3 ≤ 120)
    (h4 : 2 ≤ n4 ∧ n4 ≤ 120) (h5 : 2 ≤ n5 ∧ n5 ≤ 120) :
    ∃ r w, smallPoly (fin q z) va n2 n3 n4 n5 = (fin r w : FV f) ∧
      |r - (q + q * (a / n2 + q * (q / n3 + q * (a / n4 + q * q / n5))))| ≤ 16 / 10 * (uro f * |q|) := by
  have hu := uro_pos f
  have hu1 := uro_lt_half f
  have hmn := minNormal_pos f
  have hx := is_fin (f := f) q z
  have R : ∀ n : ℤ, 2 ≤ n ∧ n ≤ 120 → (2:ℚ) ≤ n := fun n h => by exact_mod_cast h.1
  have A0 := abs_nonneg q
  have bT : |a / (n2:ℚ) + q * (q / n3 + q * (a / n4 + q * q / n5))| ≤ 51 / 100 * |q| := by
    have b4 := div_abs_le (R n4 h4) haq.le
    have b5 := div_abs_le (R n5 h5) (show |q * q| ≤ 1 / 9999 * |q| by
      rw [abs_mul]; exact mul_le_mul_of_nonneg_right h1 A0)
    have b3 := div_abs_le (R n3 h3) (le_refl |q|)
    have b2 := div_abs_le (R n2 h2) haq.le
    have t4 : |a / (n4:ℚ) + q * q / n5| ≤ |q| := (abs_add_le _ _).trans (by linarith)
    have m : ∀ s : ℚ, |s| ≤ |q| → |q * s| ≤ 1 / 9999 * |q| := fun s hs => by
      rw [abs_mul]; exact mul_le_mul h1 hs (abs_nonneg _) (by norm_num)
    have t3 : |q / (n3:ℚ) + q * (a / n4 + q * q / n5)| ≤ |q| := (abs_add_le _ _).trans (by linarith [m _ t4])
    exact (abs_add_le _ _).trans (by linarith [m _ t3])
  unfold smallPoly
  rcases lt_or_ge |q| (minNormal f) with hs | hs
  · obtain ⟨s, vs, es⟩ := small_inner_sub hf (z := z) ha haq hs n2 n3 n4 n5 h2 h3 h4 h5
    have hy : |q * s| < pow2 f.emin / 2 := by
      refine lt_of_le_of_lt ?_ (small_tiny_sq hf)
      rw [abs_mul]; exact mul_le_mul hs.le es (abs_nonneg _) hmn.le
    have r0 := rnd_tiny hf hy
    have o : overflows f (rnd f (q * s)) = false := by rw [r0]; exact nov' (by norm_num)
    have v := hx.mul vs o
    rw [r0] at v
    have rq : rnd f (q + 0) = q := by rw [add_zero]; exact hv.rep
    have o2 : overflows f (rnd f (q + 0)) = false := by rw [rq]; exact hv.novf
    obtain ⟨w, hw⟩ := hx.add v o2
    rw [rq] at hw
    refine ⟨q, w, hw, ?_⟩
    rw [show ∀ T : ℚ, q - (q + T) = -T by intro T; ring, abs_neg, abs_mul]
    have hsu : |q| ≤ uro f := by
      have h := half_emin_le f
      have e : minNormal f ≤ uro f := pow2_le (by rcases f with ⟨⟨⟩, ⟨⟩⟩ <;> decide)
      linarith
    calc |q| * _ ≤ uro f * (51 / 100 * |q|) := mul_le_mul hsu bT (abs_nonneg _) hu.le
      _ ≤ _ := by nlinarith [mul_nonneg hu.le A0]
  · obtain ⟨s, vs, es⟩ := small_inner (z := z) ha haq h1 hs n2 n3 n4 n5 h2 h3 h4 h5
    generalize a / (n2:ℚ) + q * (q / n3 + q * (a / n4 + q * q / n5)) = T at *
    have U0 : 0 ≤ uro f * |q| := mul_nonneg hu.le A0
    have A1 : 0 < |q| := by linarith
    have UA : uro f * |q| ≤ 1 / 1000000 * |q| := mul_le_mul_of_nonneg_right (by linarith) A0
    have ey : |q * s - q * T| ≤ 1 / 1000 * (uro f * |q|) := by
      rw [← mul_sub, abs_mul]
      calc |q| * |s - T| ≤ 1 / 9999 * (5 * (uro f * |q|)) := mul_le_mul h1 es (abs_nonneg _) (by norm_num)
        _ ≤ _ := by linarith
    have bs : |s| ≤ 52 / 100 * |q| := by
      calc |s| = |(s - T) + T| := by ring_nf
        _ ≤ |s - T| + |T| := abs_add_le _ _
        _ ≤ _ := by linarith
    have by1 : |q * s| ≤ |q| * (52 / 100 * |q|) := by
      rw [abs_mul]; exact mul_le_mul_of_nonneg_left bs A0
    have by2 : |q * s| ≤ 1 / 9999 * |q| := by
      refine by1.trans ?_
      nlinarith
    have et : |rnd f (q * s) - q * s| ≤ 53 / 100 * (uro f * |q|) := by
      rcases le_or_gt |q| (uro f) with h | h
      · refine (rnd_err_self hf _).trans (by1.trans ?_)
        nlinarith
      · refine (rnd_err_all _).trans ?_
        have h6 := half_emin_le f
        have h7 : pow2 (-100) ≤ 1 / 1000 * |q| := by
          have a1 : pow2 (-100) ≤ 1 / 1000 * uro f := by
            have : pow2 (-100) ≤ pow2 (-10 + -(f.prec:ℤ)) := pow2_le (by rcases f with ⟨⟨⟩, ⟨⟩⟩ <;> decide)
            rw [pow2_add] at this
            have e : pow2 (-10) = 1 / 1024 := by norm_num [pow2_eq]
            rw [e] at this
            unfold uro
            have := pow2_pos (-(f.prec:ℤ))
            linarith
          linarith
        have h8 := mul_le_mul_of_nonneg_left h7 hu.le
        have h9 := mul_le_mul_of_nonneg_left by2 hu.le
        nlinarith
    have o : overflows f (rnd f (q * s)) = false := nov (by2.trans (by linarith))
    have v := hx.mul vs o
    have bt : |rnd f (q * s)| ≤ 1 / 1000 * |q| := by
      calc |rnd f (q * s)| = |(rnd f (q * s) - q * s) + q * s| := by ring_nf
        _ ≤ _ := (abs_add_le _ _).trans (by linarith)
    have rt := rep_rnd f (q * s)
    generalize rnd f (q * s) = t at *
    have bqt : |q + t| ≤ 1001 / 1000 * |q| := (abs_add_le _ _).trans (by linarith)
    have o2 : overflows f (rnd f (q + t)) = false := nov (bqt.trans (by linarith))
    obtain ⟨w, hw⟩ := hx.add v o2
    refine ⟨_, w, hw, ?_⟩
    have er := rnd_add_rel hv.rep rt
    have h9 := mul_le_mul_of_nonneg_left bqt hu.le
    calc |rnd f (q + t) - (q + q * T)| = |(rnd f (q + t) - (q + t)) + ((t - q * s) + (q * s - q * T))| := by ring_nf
      _ ≤ |rnd f (q + t) - (q + t)| + (|t - q * s| + |q * s - q * T|) :=
        (abs_add_le _ _).trans (by gcongr; exact abs_add_le _ _)
      _ ≤ _ := by nlinarith

theorem small_range {q : ℚ} {z : Bool} (h : fabs (fin q z : FV f) ≤ d 1e-4) :
    |q| ≤ 1 / 9999 ∧ ¬ fabs (fin q z : FV f) > d 1e-4 := by
  obtain ⟨w, hw, h1, h2⟩ := d_1em4 (f := f)
  have hd : Is (d 1e-4 : FV f) w := ⟨false, hw⟩
  rw [(is_fin q z).fabs.le_iff hd] at h
  rw [gt_iff, hd.lt_iff (is_fin q z).fabs, not_lt]
  exact ⟨by linarith, h⟩

theorem uro_ge_real (f : Fmt) : (1 / 2 ^ 64 : ℝ) ≤ 1 / 2 ^ f.prec := by
  apply one_div_le_one_div_of_le (by positivity)
  exact pow_le_pow_right₀ (by norm_num) (by rcases f with ⟨⟨⟩, ⟨⟩⟩ <;> decide)

/-- the error bound carries over to a real function close to the polynomial -/
theorem small_real {q r p : ℚ} {g : ℝ} (h : |r - p| ≤ 16 / 10 * (uro f * |q|)) (h1 : |(q:ℝ)| ≤ 1 / 9999)
    (hg : |g - (p:ℝ)| ≤ 11 / 10 * |(q:ℝ)| ^ 6) (hl : 999 / 1000 * |(q:ℝ)| ≤ |g|) :
    |(r:ℝ) - g| ≤ 2 * (1 / 2 ^ f.prec) * |g| := by
  have hr : |(r:ℝ) - p| ≤ 16 / 10 * (1 / 2 ^ f.prec * |(q:ℝ)|) := by
    have := (Rat.cast_le (K := ℝ)).2 h
    push_cast at this
    rwa [uro_eq] at this
  have hu := uro_ge_real f
  generalize (1 / 2 ^ f.prec : ℝ) = u at *
  have hq := abs_nonneg (q:ℝ)
  generalize |(q:ℝ)| = A at *
  have h6 : A ^ 6 ≤ (1 / 9999) ^ 5 * A := by
    rw [pow_succ]; exact mul_le_mul_of_nonneg_right (pow_le_pow_left₀ hq h1 5) hq
  have h7 : (11 / 10 * (1 / 9999) ^ 5 : ℝ) ≤ 3 / 10 * u := by
    refine le_trans ?_ (mul_le_mul_of_nonneg_left hu (by norm_num)); norm_num
  have h8 := mul_le_mul_of_nonneg_right h7 hq
  have hu0 : 0 ≤ u := le_trans (by positivity) hu
  have h9 := mul_le_mul_of_nonneg_left hl hu0
  have hA : 0 ≤ u * A := mul_nonneg hu0 hq
  calc |(r:ℝ) - g| = |(r - p) - (g - p)| := by ring_nf
    _ ≤ |(r:ℝ) - p| + |g - p| := abs_sub _ _
    _ ≤ _ := by nlinarith

/-- C34: for `|x| ≤ 1e-4` (subnormals and zeros included) `expm1(x)` is within a relative error of `2u` of
`e^x - 1`. -/
theorem C34_accuracy (hf : f.exact = false) (q : ℚ) (z : Bool) (hx : Valid (fin q z : FV f))
    (h : fabs (fin q z : FV f) ≤ d 1e-4) :
    ∃ r w, expm1 (fin q z : FV f) = .ok (fin r w) ∧
      |(r : ℝ) - (Real.exp q - 1)| ≤ 2 * (1 / 2 ^ f.prec) * |Real.exp q - 1| := by
  obtain ⟨h1, h2⟩ := small_range h
  obtain ⟨r, w, e1, e2⟩ := small_poly hf hx (is_fin q z) rfl h1 2 6 24 120 (by norm_num) (by norm_num) (by norm_num)
    (by norm_num)
  refine ⟨r, w, ?_, ?_⟩
  · rw [expm1_small (by simp) h2]; exact congrArg _ e1
  have h1' : |(q:ℝ)| ≤ 1 / 9999 := by have := (Rat.cast_le (K := ℝ)).2 h1; push_cast at this; exact this
  have hb := Real.exp_bound (x := (q:ℝ)) (h1'.trans (by norm_num)) (n := 6) (by norm_num)
  have hq := abs_nonneg (q:ℝ)
  refine small_real e2 h1' ?_ ?_
  · norm_num [Finset.sum_range_succ, Nat.factorial] at hb
    push_cast
    have h6 : 0 ≤ |(q:ℝ)| ^ 6 := by positivity
    refine le_trans (le_of_eq ?_) (hb.trans (by linarith))
    congr 1
    ring
  · have h3 := Real.abs_exp_sub_one_sub_id_le (x := (q:ℝ)) (h1'.trans (by norm_num))
    have h4 : (q:ℝ) ^ 2 ≤ 1 / 9999 * |(q:ℝ)| := by
      rw [← sq_abs, pow_two]; exact mul_le_mul_of_nonneg_right h1' hq
    have h5 : |(q:ℝ)| ≤ |Real.exp q - 1| + |Real.exp q - 1 - q| := by
      calc |(q:ℝ)| = |(Real.exp q - 1) - (Real.exp q - 1 - q)| := by ring_nf
        _ ≤ _ := abs_sub _ _
    linarith

/-- C39: for `|x| ≤ 1e-4` (subnormals and zeros included) `log1p(x)` is within a relative error of `2u` of
`ln (1 + x)`. -/
theorem C39_accuracy (hf : f.exact = false) (q : ℚ) (z : Bool) (hx : Valid (fin q z : FV f))
    (h : fabs (fin q z : FV f) ≤ d 1e-4) :
    ∃ r w, log1p (fin q z : FV f) = .ok (fin r w) ∧
      |(r : ℝ) - Real.log (1 + q)| ≤ 2 * (1 / 2 ^ f.prec) * |Real.log (1 + q)| := by
  obtain ⟨h1, h2⟩ := small_range h
  obtain ⟨r, w, e1, e2⟩ := small_poly hf hx (is_fin q z).neg (abs_neg q) h1 2 3 4 5 (by norm_num) (by norm_num)
    (by norm_num) (by norm_num)
  refine ⟨r, w, ?_, ?_⟩
  · rw [log1p_small (by simp) h2]; exact congrArg _ e1
  have h1' : |(q:ℝ)| ≤ 1 / 9999 := by have := (Rat.cast_le (K := ℝ)).2 h1; push_cast at this; exact this
  have hn : |(-(q:ℝ))| < 1 := by rw [abs_neg]; linarith
  have hq := abs_nonneg (q:ℝ)
  have hb := Real.abs_log_sub_add_sum_range_le (x := -(q:ℝ)) hn 5
  have hb1 := Real.abs_log_sub_add_sum_range_le (x := -(q:ℝ)) hn 1
  rw [abs_neg, sub_neg_eq_add] at hb hb1
  refine small_real e2 h1' ?_ ?_
  · norm_num [Finset.sum_range_succ] at hb
    push_cast
    have h6 : 0 ≤ |(q:ℝ)| ^ 6 := by positivity
    refine le_trans (le_of_eq ?_) (hb.trans ?_)
    · congr 1; ring
    · rw [div_le_iff₀ (by linarith)]; nlinarith
  · norm_num [Finset.sum_range_succ] at hb1
    have h4 : (q:ℝ) ^ 2 / (1 - |(q:ℝ)|) ≤ 1 / 9998 * |(q:ℝ)| := by
      rw [div_le_iff₀ (by linarith), ← sq_abs]; nlinarith
    have h5 : |(q:ℝ)| ≤ |Real.log (1 + q)| + |-(q:ℝ) + Real.log (1 + q)| := by
      calc |(q:ℝ)| = |Real.log (1 + q) - (-(q:ℝ) + Real.log (1 + q))| := by ring_nf
        _ ≤ _ := abs_sub _ _
    linarith

end Gcem.Props
