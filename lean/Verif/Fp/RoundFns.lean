import Verif.Fp.Value

/-!
# Exactness of the rounding functions: lemmas
-/

namespace Gcem
open FV
variable {f : Fmt}

theorem bigLit_eq (f : Fmt) : (bigLit f : FV f) = fin (2 ^ (f.prec - 1)) false := by
  rcases f with ⟨⟨⟩, b⟩
  · change (i 8388608 : FV _) = fin (2 ^ 23) false
    rw [i_small (by decide)]; norm_num
  · change (i 4503599627370496 : FV _) = fin (2 ^ 52) false
    rw [i_eq (by cases b <;> decide)]; norm_num
  · change (i 9223372036854775808 : FV _) = fin (2 ^ 63) false
    rw [i_eq (by cases b <;> decide)]; norm_num

/-- at or above `2^(p-1)` every representable value is an integer -/
theorem int_of_big {q : ℚ} (hf : f.exact = false) (hr : Rep f q) (hb : 2 ^ (f.prec - 1) ≤ |q|) :
    ∃ n : ℤ, q = n := by
  have hq : q ≠ 0 := by rintro rfl; have : (0:ℚ) < 2 ^ (f.prec - 1) := by positivity
                        simp at hb; linarith
  obtain ⟨m, hm, -⟩ := rep_scaled hf hq hr
  have hp := prec_pos f
  have h1 : ((f.prec - 1 : ℕ) : ℤ) ≤ ilog2 q := by
    rw [le_ilog2_iff hq, pow2_nat]; exact hb
  have h2 : 0 ≤ fexp f q := by unfold fexp; omega
  obtain ⟨k, -, hk⟩ := pow2_mult h2
  rw [pow2_zero] at hk
  exact ⟨m * k, by rw [hm, hk]; push_cast; ring⟩

theorem ratTrunc_of_nonneg {q : ℚ} (h : 0 ≤ q) : ratTrunc q = ⌊q⌋ := by unfold ratTrunc; simp [h]
theorem ratTrunc_of_nonpos {q : ℚ} (h : q ≤ 0) : ratTrunc q = ⌈q⌉ := by
  unfold ratTrunc
  split
  · have : q = 0 := le_antisymm h (by assumption)
    subst this; simp
  · rw [← Int.ceil_neg, neg_neg]
theorem ratTrunc_neg (q : ℚ) : ratTrunc (-q) = - ratTrunc q := by
  rcases le_total 0 q with h | h
  · rw [ratTrunc_of_nonneg h, ratTrunc_of_nonpos (by linarith), Int.ceil_neg]
  · rw [ratTrunc_of_nonpos h, ratTrunc_of_nonneg (by linarith), Int.floor_neg]
theorem ratTrunc_int (n : ℤ) : ratTrunc (n : ℚ) = n := by
  unfold ratTrunc; rw [← Int.cast_neg, Int.floor_intCast, Int.floor_intCast]; simp
theorem abs_ratTrunc (q : ℚ) : |ratTrunc q| = ⌊|q|⌋ := by
  rcases le_total 0 q with h | h
  · rw [ratTrunc_of_nonneg h, abs_of_nonneg h, abs_of_nonneg (Int.floor_nonneg.2 h)]
  · rw [ratTrunc_of_nonpos h, abs_of_nonpos h, Int.floor_neg, abs_of_nonpos]
    exact Int.ceil_le.2 (by exact_mod_cast h)
theorem abs_ratTrunc_le (q : ℚ) : |(ratTrunc q : ℚ)| ≤ |q| := by
  rw [← Int.cast_abs, abs_ratTrunc]; exact Int.floor_le _
theorem ratTrunc_zero_of_lt {q : ℚ} (h : |q| < 1) : ratTrunc q = 0 := by
  have := abs_ratTrunc q
  rw [Int.floor_eq_zero_iff.2 ⟨abs_nonneg _, h⟩] at this
  exact abs_eq_zero.1 this
theorem ratTrunc_mono {a b : ℚ} (h : a ≤ b) : ratTrunc a ≤ ratTrunc b := by
  rcases le_total 0 a with ha | ha
  · rw [ratTrunc_of_nonneg ha, ratTrunc_of_nonneg (ha.trans h)]; exact Int.floor_mono h
  · rcases le_total 0 b with hb | hb
    · rw [ratTrunc_of_nonpos ha, ratTrunc_of_nonneg hb]
      exact (Int.ceil_le.2 (by exact_mod_cast ha) : _ ≤ (0:ℤ)).trans (Int.floor_nonneg.2 hb)
    · rw [ratTrunc_of_nonpos ha, ratTrunc_of_nonpos hb]; exact Int.ceil_mono h

/-- truncation of a value below `2^(p-1)` is small -/
theorem trunc_lt_big {q : ℚ} (hb : |q| < 2 ^ (f.prec - 1)) : |ratTrunc q| < 2 ^ (f.prec - 1) := by
  have := (abs_ratTrunc_le q).trans_lt hb
  rw [← Int.cast_abs] at this
  exact_mod_cast this

theorem pow_prec_bound (f : Fmt) :
    (2:ℤ) ^ (f.prec - 1) ≤ 2 ^ 63 ∧ (2 : ℤ) * 2 ^ (f.prec - 1) = 2 ^ f.prec ∧
    (8388608 : ℤ) ≤ 2 ^ (f.prec - 1) ∧ (f.ty = .float → (2:ℤ) ^ (f.prec - 1) ≤ 2 ^ 31) ∧
    (f.ty ≠ .ldouble → (2:ℤ) ^ (f.prec - 1) ≤ 2 ^ 52) := by
  rcases f with ⟨⟨⟩, ⟨⟩⟩ <;> decide

theorem toInt_ok {lo hi : ℤ} {q : ℚ} {z : Bool} (h : lo ≤ ratTrunc q ∧ ratTrunc q ≤ hi) :
    toInt lo hi (fin q z : FV f) = .ok (ratTrunc q) := by
  unfold toInt; simp [h]

theorem i_prec {n : ℤ} (h : |n| ≤ 2 ^ (f.prec - 1)) : (i n : FV f) = fin n false := by
  apply i_eq
  have := (pow_prec_bound f).2.1
  have : (0:ℤ) < 2 ^ (f.prec - 1) := by positivity
  omega

theorem small_sgn {q : ℚ} : (i (if 0 < q then 1 else if q < 0 then -1 else 0) : FV f)
    = fin (if 0 < q then 1 else if q < 0 then -1 else 0) false := by
  split
  · simp
  · split <;> simp

theorem ratTrunc_abs_mul_sgn (q : ℚ) :
    (ratTrunc |q| : ℚ) * (if 0 < q then 1 else if q < 0 then -1 else 0) = ratTrunc q := by
  rcases lt_trichotomy q 0 with h | h | h
  · simp only [h, not_lt.2 h.le, if_true, if_false, abs_of_neg h, ratTrunc_neg]; push_cast; ring
  · subst h; simp [ratTrunc]
  · simp [h, abs_of_pos h]

theorem fin_add_rep {a b : ℚ} {za zb : Bool} (hr : Rep f (a + b)) (ho : overflows f (a + b) = false) :
    (fin a za : FV f) + fin b zb = fin (a + b) (decide (a + b = 0) && (za && zb)) := by
  rw [fin_add, mk_of_rep hr ho]

theorem fin_sub_rep {a b : ℚ} {za zb : Bool} (hr : Rep f (a - b)) (ho : overflows f (a - b) = false) :
    (fin a za : FV f) - fin b zb
      = fin (a - b) (decide (a - b = 0) && (za && (if b = 0 then !zb else zb))) := by
  rw [fin_sub, mk_of_rep hr ho]

theorem fin_mul_rep {a b : ℚ} {za zb : Bool} (hr : Rep f (a * b)) (ho : overflows f (a * b) = false) :
    (fin a za : FV f) * fin b zb = fin (a * b)
      (decide (a * b = 0) && (sign (fin a za : FV f) ^^ sign (fin b zb : FV f))) := by
  rw [fin_mul, mk_of_rep hr ho]

/-- the integral part handed to `floor_int`/`ceil_int` -/
theorem ld_whole {q : ℚ} {z : Bool} (hb : |q| < 2 ^ (f.prec - 1)) :
    (i (ratTrunc |q|) * i (sgn (fin q z : FV f)) : FV f)
      = fin (ratTrunc q) (decide (ratTrunc q = 0) && decide (q < 0)) := by
  have h1 : |ratTrunc (|q|)| ≤ 2 ^ (f.prec - 1) := by
    rw [abs_ratTrunc, abs_abs, ← abs_ratTrunc]; exact (trunc_lt_big hb).le
  have h2 : |ratTrunc q| ≤ 2 ^ f.prec := by
    have := trunc_lt_big hb; have := (pow_prec_bound f).2.1; have := abs_nonneg (ratTrunc q); omega
  have h3 : (0:ℚ) ≤ ratTrunc |q| := by
    rw [ratTrunc_of_nonneg (abs_nonneg _)]; exact_mod_cast Int.floor_nonneg.2 (abs_nonneg q)
  rw [i_prec h1, sgn_fin, small_sgn, fin_mul_rep]
  · rw [ratTrunc_abs_mul_sgn]
    congr 1
    simp only [Int.cast_eq_zero]
    by_cases h0 : ratTrunc q = 0
    · have h00 : ratTrunc |q| = 0 := by
        have := abs_ratTrunc q; rw [h0] at this; rw [ratTrunc_of_nonneg (abs_nonneg _)]; simpa using this.symm
      rcases lt_trichotomy q 0 with h | h | h
      · simp [h0, h00, h, not_lt.2 h.le, sign]
      · subst h; simp [h0, sign]
      · simp [h0, h00, h, not_lt.2 h.le, sign]
    · simp [h0]
  · rw [ratTrunc_abs_mul_sgn]; exact rep_int h2
  · rw [ratTrunc_abs_mul_sgn]; exact overflows_int h2

theorem ratTrunc_cases (q : ℚ) :
    ((0 ≤ q ∨ (ratTrunc q : ℚ) ≤ q) ∧ ratTrunc q = ⌊q⌋) ∨
    (q < 0 ∧ q < ratTrunc q ∧ ratTrunc q = ⌊q⌋ + 1) := by
  rcases le_or_gt 0 q with h | h
  · exact Or.inl ⟨Or.inl h, ratTrunc_of_nonneg h⟩
  · rw [ratTrunc_of_nonpos h.le]
    rcases (Int.le_ceil q).lt_or_eq with h2 | h2
    · refine Or.inr ⟨h, h2, ?_⟩
      refine le_antisymm (Int.ceil_le_floor_add_one q) ?_
      have := (Int.floor_le q).trans_lt h2
      have : ⌊q⌋ < ⌈q⌉ := by exact_mod_cast this
      omega
    · left
      refine ⟨Or.inr h2.ge, ?_⟩
      conv_rhs => rw [h2]
      simp

/-- `floor_int` on a small value, for any sign of a zero integral part -/
theorem floor_int_small {q : ℚ} {z w : Bool} (hb : |q| < 2 ^ (f.prec - 1))
    (hw : 0 ≤ q → w = false) :
    floor_int (fin q z : FV f) (fin (ratTrunc q) w) = fin ⌊q⌋ false := by
  have hn := trunc_lt_big hb
  have hP := pow_prec_bound f
  unfold floor_int floor_resid
  rcases ratTrunc_cases q with ⟨h1, h2⟩ | ⟨h1, h2, h3⟩
  · have hb : (decide ((fin q z : FV f) < i 0) && decide ((fin q z : FV f) < fin (ratTrunc q) w)) = false := by
      simp only [i_zero, fin_lt, Bool.and_eq_false_iff, decide_eq_false_iff_not, not_lt]
      exact h1
    rw [hb]
    have hle : |ratTrunc q| ≤ 2 ^ f.prec := by omega
    simp only [ofBool, i_zero, Bool.false_eq_true, if_false]
    rw [fin_sub_rep (by rw [sub_zero]; exact rep_int hle) (by rw [sub_zero]; exact overflows_int hle)]
    rw [sub_zero, h2]
    congr 1
    by_cases h0 : ratTrunc q = 0
    · rcases h1 with h1 | h1
      · simp [hw h1]
      · rw [h0] at h1; simp only [Int.cast_zero] at h1
        simp [hw h1]
    · rw [h2] at h0; simp [h0]
  · have hb : (decide ((fin q z : FV f) < i 0) && decide ((fin q z : FV f) < fin (ratTrunc q) w)) = true := by
      simp only [i_zero, fin_lt, Bool.and_eq_true, decide_eq_true_eq]
      exact ⟨h1, h2⟩
    rw [hb]
    have hle : |ratTrunc q - 1| ≤ 2 ^ f.prec := by
      have := abs_sub (ratTrunc q) 1; simp only [abs_one] at this; omega
    have hc : (ratTrunc q : ℚ) - 1 = ((ratTrunc q - 1 : ℤ) : ℚ) := by push_cast; ring
    simp only [ofBool, i_one, if_true]
    rw [fin_sub_rep (by rw [hc]; exact rep_int hle) (by rw [hc]; exact overflows_int hle)]
    rw [hc]
    have hq : ratTrunc q - 1 = ⌊q⌋ := by omega
    rw [hq]
    congr 1
    simp

theorem ceil_cases (q : ℚ) :
    ((q ≤ 0 ∨ q ≤ (ratTrunc q : ℚ)) ∧ ratTrunc q = ⌈q⌉) ∨
    (0 < q ∧ ratTrunc q < q ∧ ratTrunc q = ⌈q⌉ - 1) := by
  rcases ratTrunc_cases (-q) with ⟨h1, h2⟩ | ⟨h1, h2, h3⟩
  · left
    rw [ratTrunc_neg, Int.floor_neg] at *
    push_cast at *
    refine ⟨?_, by omega⟩
    rcases h1 with h1 | h1
    · left; linarith
    · right; linarith
  · right
    rw [ratTrunc_neg] at *
    rw [Int.floor_neg] at h3
    push_cast at *
    exact ⟨by linarith, by linarith, by omega⟩

theorem ceil_int_small {q : ℚ} {z w : Bool} (hb : |q| < 2 ^ (f.prec - 1)) :
    ceil_int (fin q z : FV f) (fin (ratTrunc q) w) = fin ⌈q⌉ false := by
  have hn := trunc_lt_big hb
  have hP := pow_prec_bound f
  unfold ceil_int ceil_resid
  rcases ceil_cases q with ⟨h1, h2⟩ | ⟨h1, h2, h3⟩
  · have hb : (decide ((fin q z : FV f) > i 0) && decide ((fin q z : FV f) > fin (ratTrunc q) w)) = false := by
      simp only [i_zero, gt_iff, fin_lt, Bool.and_eq_false_iff, decide_eq_false_iff_not, not_lt]
      exact h1
    rw [hb]
    have hle : |ratTrunc q| ≤ 2 ^ f.prec := by omega
    simp only [ofBool, i_zero, Bool.false_eq_true, if_false]
    rw [fin_add_rep (by rw [add_zero]; exact rep_int hle) (by rw [add_zero]; exact overflows_int hle)]
    rw [add_zero, h2]
    congr 1
    simp
  · have hb : (decide ((fin q z : FV f) > i 0) && decide ((fin q z : FV f) > fin (ratTrunc q) w)) = true := by
      simp only [i_zero, gt_iff, fin_lt, Bool.and_eq_true, decide_eq_true_eq]
      exact ⟨h1, h2⟩
    rw [hb]
    have hle : |ratTrunc q + 1| ≤ 2 ^ f.prec := by
      have := abs_add_le (ratTrunc q) 1; simp only [abs_one] at this; omega
    have hc : (ratTrunc q : ℚ) + 1 = ((ratTrunc q + 1 : ℤ) : ℚ) := by push_cast; ring
    simp only [ofBool, i_one, if_true]
    rw [fin_add_rep (by rw [hc]; exact rep_int hle) (by rw [hc]; exact overflows_int hle)]
    rw [hc]
    have hq : ratTrunc q + 1 = ⌈q⌉ := by omega
    rw [hq]
    congr 1
    simp

theorem big_le_fabs {q : ℚ} {z : Bool} :
    (bigLit f ≤ fabs (fin q z : FV f)) ↔ (2:ℚ) ^ (f.prec - 1) ≤ |q| := by
  obtain ⟨w, hw⟩ := fabs_fin' (f := f) q z
  rw [bigLit_eq, hw]; simp

/-- `floor_check_internal` is the exact floor -/
theorem floor_check_internal_eq {q : ℚ} {z : Bool} (hf : f.exact = false)
    (hx : Valid (fin q z : FV f)) (h0 : q ≠ 0) :
    floor_check_internal (fin q z : FV f) = .ok (fin ⌊q⌋ false) := by
  unfold floor_check_internal
  by_cases hb : (2:ℚ) ^ (f.prec - 1) ≤ |q|
  · rw [if_pos (big_le_fabs.2 hb)]
    obtain ⟨n, hn⟩ := int_of_big hf hx.rep hb
    rw [hx.z_false h0, hn]; simp
  · rw [if_neg (fun h => hb (big_le_fabs.1 h))]
    push Not at hb
    have hn := trunc_lt_big hb
    rw [abs_lt] at hn
    have hP := pow_prec_bound f
    cases hty : f.ty with
    | float =>
      have := hP.2.2.2.1 hty
      simp only [toI32, toInt_ok (f := f) (q := q) (z := z) (lo := -2 ^ 31) (hi := 2 ^ 31 - 1) (by omega)]
      change Except.ok (floor_int _ (i _)) = _
      rw [i_prec (trunc_lt_big hb).le, floor_int_small hb (fun _ => rfl)]
    | double =>
      have := hP.2.2.2.2 (by simp [hty])
      simp only [toI64, toInt_ok (f := f) (q := q) (z := z) (lo := -2 ^ 63) (hi := 2 ^ 63 - 1) (by omega)]
      change Except.ok (floor_int _ (i _)) = _
      rw [i_prec (trunc_lt_big hb).le, floor_int_small hb (fun _ => rfl)]
    | ldouble =>
      rw [fabs_fin hx]
      have h1 := trunc_lt_big (f := f) (q := |q|) (by rwa [abs_abs])
      rw [abs_lt] at h1
      have h2 : 0 ≤ ratTrunc |q| := by
        rw [ratTrunc_of_nonneg (abs_nonneg _)]; exact Int.floor_nonneg.2 (abs_nonneg q)
      simp only [toU64, toInt_ok (f := f) (q := |q|) (z := false) (lo := 0) (hi := 2 ^ 64 - 1) (by omega)]
      change Except.ok (floor_int _ (i _ * i _)) = _
      rw [ld_whole hb, floor_int_small hb]
      intro h; simp [h]

theorem ceil_check_internal_eq {q : ℚ} {z : Bool} (hf : f.exact = false)
    (hx : Valid (fin q z : FV f)) (h0 : q ≠ 0) :
    ceil_check_internal (fin q z : FV f) = .ok (fin ⌈q⌉ false) := by
  unfold ceil_check_internal
  by_cases hb : (2:ℚ) ^ (f.prec - 1) ≤ |q|
  · rw [if_pos (big_le_fabs.2 hb)]
    obtain ⟨n, hn⟩ := int_of_big hf hx.rep hb
    rw [hx.z_false h0, hn]; simp
  · rw [if_neg (fun h => hb (big_le_fabs.1 h))]
    push Not at hb
    have hn := trunc_lt_big hb
    rw [abs_lt] at hn
    have hP := pow_prec_bound f
    cases hty : f.ty with
    | float =>
      have := hP.2.2.2.1 hty
      simp only [toI32, toInt_ok (f := f) (q := q) (z := z) (lo := -2 ^ 31) (hi := 2 ^ 31 - 1) (by omega)]
      change Except.ok (ceil_int _ (i _)) = _
      rw [i_prec (trunc_lt_big hb).le, ceil_int_small hb]
    | double =>
      have := hP.2.2.2.2 (by simp [hty])
      simp only [toI64, toInt_ok (f := f) (q := q) (z := z) (lo := -2 ^ 63) (hi := 2 ^ 63 - 1) (by omega)]
      change Except.ok (ceil_int _ (i _)) = _
      rw [i_prec (trunc_lt_big hb).le, ceil_int_small hb]
    | ldouble =>
      rw [fabs_fin hx]
      have h1 := trunc_lt_big (f := f) (q := |q|) (by rwa [abs_abs])
      rw [abs_lt] at h1
      have h2 : 0 ≤ ratTrunc |q| := by
        rw [ratTrunc_of_nonneg (abs_nonneg _)]; exact Int.floor_nonneg.2 (abs_nonneg q)
      simp only [toU64, toInt_ok (f := f) (q := |q|) (z := false) (lo := 0) (hi := 2 ^ 64 - 1) (by omega)]
      change Except.ok (ceil_int _ (i _ * i _)) = _
      rw [ld_whole hb, ceil_int_small hb]

/-- zero sign of `trunc`: `-0` only for `long double` and `-1 < x < 0` -/
theorem trunc_check_internal_eq {q : ℚ} {z : Bool} (hf : f.exact = false)
    (hx : Valid (fin q z : FV f)) (h0 : q ≠ 0) :
    trunc_check_internal (fin q z : FV f)
      = .ok (fin (ratTrunc q) (decide (f.ty = .ldouble) && (decide (ratTrunc q = 0) && decide (q < 0)))) := by
  unfold trunc_check_internal
  by_cases hb : (2:ℚ) ^ (f.prec - 1) ≤ |q|
  · rw [if_pos (big_le_fabs.2 hb)]
    obtain ⟨n, hn⟩ := int_of_big hf hx.rep hb
    have : ratTrunc q = n := by rw [hn, ratTrunc_int]
    have hn0 : n ≠ 0 := by rintro rfl; simp at hn; exact h0 hn
    rw [hx.z_false h0, this]; simp [hn, hn0]
  · rw [if_neg (fun h => hb (big_le_fabs.1 h))]
    push Not at hb
    have hn := trunc_lt_big hb
    rw [abs_lt] at hn
    have hP := pow_prec_bound f
    cases hty : f.ty with
    | float =>
      simp only [trunc_int, toI64, toInt_ok (f := f) (q := q) (z := z) (lo := -2 ^ 63) (hi := 2 ^ 63 - 1) (by omega)]
      change Except.ok (i _) = _
      rw [i_prec (trunc_lt_big hb).le]; simp
    | double =>
      simp only [trunc_int, toI64, toInt_ok (f := f) (q := q) (z := z) (lo := -2 ^ 63) (hi := 2 ^ 63 - 1) (by omega)]
      change Except.ok (i _) = _
      rw [i_prec (trunc_lt_big hb).le]; simp
    | ldouble =>
      rw [fabs_fin hx]
      have h1 := trunc_lt_big (f := f) (q := |q|) (by rwa [abs_abs])
      rw [abs_lt] at h1
      have h2 : 0 ≤ ratTrunc |q| := by
        rw [ratTrunc_of_nonneg (abs_nonneg _)]; exact Int.floor_nonneg.2 (abs_nonneg q)
      simp only [toU64, toInt_ok (f := f) (q := |q|) (z := false) (lo := 0) (hi := 2 ^ 64 - 1) (by omega)]
      change Except.ok (i _ * i _) = _
      rw [ld_whole hb]; simp

/-- a finite value that is zero or at least the smallest normal -/
def Normal (f : Fmt) (q : ℚ) : Prop := q = 0 ∨ minNormal f ≤ |q|

theorem floor_check_eq {q : ℚ} {z : Bool} (hf : f.exact = false) (hx : Valid (fin q z : FV f))
    (hn : Normal f q) : floor_check (fin q z : FV f) = .ok (fin ⌊q⌋ z) := by
  unfold floor_check
  simp only [is_nan_fin, is_finite_fin, Bool.false_eq_true, Bool.not_true, if_false]
  rcases hn with h | h
  · subst h
    rw [if_pos (by rw [limMin_gt_fabs]; simpa using minNormal_pos f)]; simp
  · have h0 : q ≠ 0 := by rintro rfl; have := minNormal_pos f; simp at h; linarith
    rw [if_neg (by rw [limMin_gt_fabs]; exact not_lt.2 h), floor_check_internal_eq hf hx h0,
      hx.z_false h0]

theorem ceil_check_eq {q : ℚ} {z : Bool} (hf : f.exact = false) (hx : Valid (fin q z : FV f))
    (hn : Normal f q) : ceil_check (fin q z : FV f) = .ok (fin ⌈q⌉ z) := by
  unfold ceil_check
  simp only [is_nan_fin, is_finite_fin, Bool.false_eq_true, Bool.not_true, if_false]
  rcases hn with h | h
  · subst h
    rw [if_pos (by rw [limMin_gt_fabs]; simpa using minNormal_pos f)]; simp
  · have h0 : q ≠ 0 := by rintro rfl; have := minNormal_pos f; simp at h; linarith
    rw [if_neg (by rw [limMin_gt_fabs]; exact not_lt.2 h), ceil_check_internal_eq hf hx h0,
      hx.z_false h0]

/-- sign flag of the result of `trunc` -/
def truncZ (f : Fmt) (q : ℚ) (z : Bool) : Bool :=
  z || (decide (f.ty = .ldouble) && (decide (ratTrunc q = 0) && decide (q < 0)))

theorem trunc_check_eq {q : ℚ} {z : Bool} (hf : f.exact = false) (hx : Valid (fin q z : FV f))
    (hn : Normal f q) : trunc_check (fin q z : FV f) = .ok (fin (ratTrunc q) (truncZ f q z)) := by
  unfold trunc_check truncZ
  simp only [is_nan_fin, is_finite_fin, Bool.false_eq_true, Bool.not_true, if_false]
  rcases hn with h | h
  · subst h
    rw [if_pos (by rw [limMin_gt_fabs]; simpa using minNormal_pos f)]; simp [ratTrunc]
  · have h0 : q ≠ 0 := by rintro rfl; have := minNormal_pos f; simp at h; linarith
    rw [if_neg (by rw [limMin_gt_fabs]; exact not_lt.2 h), trunc_check_internal_eq hf hx h0,
      hx.z_false h0]
    simp

/-- spec of C `round`: nearest integer, ties away from zero -/
def ratRound (q : ℚ) : ℤ := if 0 ≤ q then ⌊q + 1/2⌋ else -⌊-q + 1/2⌋

theorem ratRound_neg (q : ℚ) : ratRound (-q) = - ratRound q := by
  unfold ratRound
  rcases lt_trichotomy q 0 with h | h | h
  · simp [not_le.2 h, h.le]
  · subst h; norm_num
  · simp [not_le.2 h, h.le]

/-- `q - ⌊q⌋` is representable for a positive representable `q` below `2^(p-1)` -/
theorem rep_frac {q : ℚ} (hf : f.exact = false) (hr : Rep f q) (h0 : 0 < q)
    (hb : q < 2 ^ (f.prec - 1)) : Rep f (q - ⌊q⌋) := by
  obtain ⟨m, hm, hm2⟩ := rep_scaled hf h0.ne' hr
  have hfl : (0:ℚ) ≤ ⌊q⌋ := by exact_mod_cast Int.floor_nonneg.2 h0.le
  have hle := Int.floor_le q
  have hp := prec_pos f
  have h1 : fexp f q ≤ 0 := by
    unfold fexp
    have : ilog2 q < ((f.prec - 1 : ℕ) : ℤ) := by
      rw [ilog2_lt_iff h0.ne', pow2_nat, abs_of_pos h0]; exact hb
    have := emin_neg f
    have : (f.prec : ℤ) - 1 = ((f.prec - 1 : ℕ) : ℤ) := by omega
    omega
  obtain ⟨k, -, hk⟩ := pow2_mult h1
  rw [pow2_zero] at hk
  have e1 : q - ⌊q⌋ = ((m - ⌊q⌋ * k : ℤ) : ℚ) * pow2 (fexp f q) := by
    push_cast; rw [sub_mul, ← hm, mul_assoc, ← hk, mul_one]
  rw [e1]
  apply rep_of_scaled _ (fexp_ge f q)
  have hpos := pow2_pos (fexp f q)
  have e2 : (0:ℚ) ≤ ((m - ⌊q⌋ * k : ℤ) : ℚ) * pow2 (fexp f q) := by rw [← e1]; linarith
  have e3 : ((m - ⌊q⌋ * k : ℤ) : ℚ) * pow2 (fexp f q) ≤ m * pow2 (fexp f q) := by
    rw [← e1, ← hm]; linarith
  have e4 : (0:ℚ) ≤ ((m - ⌊q⌋ * k : ℤ) : ℚ) := nonneg_of_mul_nonneg_left e2 hpos
  have e5 : ((m - ⌊q⌋ * k : ℤ) : ℚ) ≤ m := le_of_mul_le_mul_right e3 hpos
  have e4' : 0 ≤ m - ⌊q⌋ * k := by exact_mod_cast e4
  have e5' : m - ⌊q⌋ * k ≤ m := by exact_mod_cast e5
  rw [abs_lt] at hm2
  rw [abs_of_nonneg e4']; omega

theorem overflows_of_abs_le {a b : ℚ} (h : |a| ≤ |b|) (hb : overflows f b = false) :
    overflows f a = false := by
  rw [overflows_false_iff] at *
  rcases hb with hb | hb
  · exact Or.inl hb
  · exact Or.inr (h.trans_lt hb)

theorem round_pos {q : ℚ} (hf : f.exact = false) (hx : Valid (fin q false : FV f))
    (h0 : 0 < q) (hn : minNormal f ≤ q) :
    round_check_internal (fin q false : FV f) = .ok (fin (ratRound q) false) := by
  unfold round_check_internal
  have habs : |q| = q := abs_of_pos h0
  by_cases hb : (2:ℚ) ^ (f.prec - 1) ≤ |q|
  · rw [if_pos (big_le_fabs.2 hb)]
    obtain ⟨n, hn⟩ := int_of_big hf hx.rep hb
    unfold ratRound
    rw [if_pos h0.le, hn, show ⌊(n:ℚ) + 1/2⌋ = n by rw [Int.floor_eq_iff]; constructor <;> linarith]
  · rw [if_neg (fun h => hb (big_le_fabs.1 h))]
    push Not at hb
    unfold round_int
    rw [floor_check_eq hf hx (Or.inr (by rw [habs]; exact hn))]
    change (if d (1/2) ≤ fabs (fin q false - fin ⌊q⌋ false) then _ else _) = _
    have hfr := rep_frac hf hx.rep h0 (by rwa [habs] at hb)
    have hfl : (0:ℚ) ≤ ⌊q⌋ := by exact_mod_cast Int.floor_nonneg.2 h0.le
    have hle := Int.floor_le q
    have hlt := Int.lt_floor_add_one q
    have ho : overflows f (q - ⌊q⌋) = false := overflows_of_abs_le
      (by rw [abs_of_nonneg (by linarith), habs]; linarith) hx.novf
    obtain ⟨w, hw⟩ : ∃ w, (fin q false : FV f) - fin ⌊q⌋ false = fin (q - ⌊q⌋) w :=
      ⟨_, fin_sub_rep hfr ho⟩
    obtain ⟨w2, hw2⟩ := fabs_fin' (f := f) (q - ⌊q⌋) w
    rw [hw, hw2, d_half, abs_of_nonneg (by linarith)]
    simp only [fin_le, sgn_fin, h0, if_true, i_one]
    have hfi : |⌊q⌋| < 2 ^ (f.prec - 1) := by
      have := trunc_lt_big hb; rwa [ratTrunc_of_nonneg h0.le] at this
    have hP := pow_prec_bound f
    have hfi0 : 0 ≤ ⌊q⌋ := Int.floor_nonneg.2 h0.le
    unfold ratRound
    rw [if_pos h0.le]
    split
    · rename_i hh
      have hle : |⌊q⌋ + 1| ≤ 2 ^ f.prec := by
        have := abs_add_le ⌊q⌋ 1; simp only [abs_one] at this; omega
      have hc : (⌊q⌋ : ℚ) + 1 = ((⌊q⌋ + 1 : ℤ) : ℚ) := by push_cast; ring
      rw [fin_add_rep (by rw [hc]; exact rep_int hle) (by rw [hc]; exact overflows_int hle), hc]
      have : ⌊q + 1/2⌋ = ⌊q⌋ + 1 := by
        rw [Int.floor_eq_iff]; push_cast; constructor <;> linarith
      rw [this]; simp
    · rename_i hh
      have : ⌊q + 1/2⌋ = ⌊q⌋ := by
        rw [Int.floor_eq_iff]; constructor <;> linarith
      rw [this]

/-- sign flag of the result of `round`: `-0` for `-1/2 < x < 0` -/
def roundZ (q : ℚ) (z : Bool) : Bool := z || (decide (ratRound q = 0) && decide (q < 0))

theorem ratRound_nonneg {q : ℚ} (h : 0 ≤ q) : 0 ≤ ratRound q := by
  unfold ratRound; rw [if_pos h]; exact Int.floor_nonneg.2 (by linarith)

theorem abs_ratRound_le {q : ℚ} (h : 0 ≤ q) : (ratRound q : ℚ) ≤ q + 1/2 := by
  unfold ratRound; rw [if_pos h]; exact Int.floor_le _

theorem valid_round_pos {q : ℚ} (hf : f.exact = false) (hx : Valid (fin q false : FV f)) (h0 : 0 < q) :
    Valid (fin (ratRound q : ℚ) false : FV f) := by
  by_cases hb : (2:ℚ) ^ (f.prec - 1) ≤ |q|
  · obtain ⟨n, hn⟩ := int_of_big hf hx.rep hb
    have : ratRound q = n := by
      unfold ratRound
      rw [if_pos h0.le, hn, show ⌊(n:ℚ) + 1/2⌋ = n by rw [Int.floor_eq_iff]; constructor <;> linarith]
    rw [this, ← hn]; exact hx
  · push Not at hb
    rw [abs_of_pos h0] at hb
    have h1 := abs_ratRound_le h0.le
    have h2 : (ratRound q : ℚ) < 2 ^ (f.prec - 1) + 1 := by linarith
    have h3 : ratRound q < 2 ^ (f.prec - 1) + 1 := by exact_mod_cast h2
    have h4 := ratRound_nonneg h0.le
    have hP := pow_prec_bound f
    have hle : |ratRound q| ≤ 2 ^ f.prec := by rw [abs_of_nonneg h4]; omega
    exact ⟨rep_int hle, overflows_int hle, by simp⟩

theorem round_check_eq {q : ℚ} {z : Bool} (hf : f.exact = false) (hx : Valid (fin q z : FV f))
    (hn : Normal f q) : round_check (fin q z : FV f) = .ok (fin (ratRound q) (roundZ q z)) := by
  unfold round_check roundZ
  simp only [is_nan_fin, is_finite_fin, Bool.false_eq_true, Bool.not_true, if_false]
  rcases hn with h | h
  · subst h
    rw [if_pos (by rw [limMin_gt_fabs]; simpa using minNormal_pos f)]
    have : ratRound 0 = 0 := by unfold ratRound; norm_num
    simp [this]
  · have h0 : q ≠ 0 := by rintro rfl; have := minNormal_pos f; simp at h; linarith
    have hz := hx.z_false h0
    subst hz
    have hxa : Valid (fin |q| false : FV f) := by rw [← fabs_fin hx]; exact valid_fabs hx
    have hpos : 0 < |q| := abs_pos.2 h0
    rw [if_neg (by rw [limMin_gt_fabs]; exact not_lt.2 h), fabs_fin hx, round_pos hf hxa hpos h]
    change Except.ok (i _ * fin _ _) = _
    congr 1
    have hv := valid_round_pos hf hxa hpos
    rcases lt_or_gt_of_ne h0 with hq | hq
    · rw [sgn_fin, if_neg (not_lt.2 hq.le), if_pos hq, i_neg_one]
      have e : (-1 : ℚ) * (ratRound |q| : ℚ) = ratRound q := by
        rw [abs_of_neg hq, ratRound_neg]; push_cast; ring
      rw [fin_mul_rep (by rw [neg_one_mul]; exact hv.rep.neg)
        (by rw [neg_one_mul, overflows_neg]; exact hv.novf), e]
      congr 1
      simp only [Int.cast_eq_zero, hq, decide_true, Bool.and_true, Bool.false_or, sign]
      by_cases hr0 : ratRound q = 0
      · have hr1 : ratRound |q| = 0 := by rw [abs_of_neg hq, ratRound_neg, hr0]; rfl
        simp [hr0, hr1]
      · simp [hr0]
    · rw [sgn_fin, if_pos hq, i_one]
      have e : (1 : ℚ) * (ratRound |q| : ℚ) = ratRound q := by rw [abs_of_pos hq, one_mul]
      rw [fin_mul_rep (by rw [one_mul]; exact hv.rep) (by rw [one_mul]; exact hv.novf), e]
      congr 1
      have : ¬ (ratRound q : ℚ) < 0 := not_lt.2 (by exact_mod_cast ratRound_nonneg hq.le)
      by_cases hr0 : ratRound q = 0
      · have hr1 : ratRound |q| = 0 := by rw [abs_of_pos hq, hr0]
        simp [hr0, hr1, not_lt.2 hq.le, sign]
      · simp [hr0]

/-! ## Subnormals and specials, all four functions -/

theorem floor_check_sub {q : ℚ} {z : Bool} (h : |q| < minNormal f) :
    floor_check (fin q z : FV f) = .ok (fin q z) := by
  unfold floor_check
  simp only [is_nan_fin, is_finite_fin, Bool.false_eq_true, Bool.not_true, if_false]
  rw [if_pos (limMin_gt_fabs.2 h)]
theorem ceil_check_sub {q : ℚ} {z : Bool} (h : |q| < minNormal f) :
    ceil_check (fin q z : FV f) = .ok (fin q z) := by
  unfold ceil_check
  simp only [is_nan_fin, is_finite_fin, Bool.false_eq_true, Bool.not_true, if_false]
  rw [if_pos (limMin_gt_fabs.2 h)]
theorem trunc_check_sub {q : ℚ} {z : Bool} (h : |q| < minNormal f) :
    trunc_check (fin q z : FV f) = .ok (fin q z) := by
  unfold trunc_check
  simp only [is_nan_fin, is_finite_fin, Bool.false_eq_true, Bool.not_true, if_false]
  rw [if_pos (limMin_gt_fabs.2 h)]
theorem round_check_sub {q : ℚ} {z : Bool} (h : |q| < minNormal f) :
    round_check (fin q z : FV f) = .ok (fin q z) := by
  unfold round_check
  simp only [is_nan_fin, is_finite_fin, Bool.false_eq_true, Bool.not_true, if_false]
  rw [if_pos (limMin_gt_fabs.2 h)]

@[simp] theorem floor_check_nan : floor_check (nan : FV f) = .ok nan := by simp [floor_check, limNaN]
@[simp] theorem ceil_check_nan : ceil_check (nan : FV f) = .ok nan := by simp [ceil_check, limNaN]
@[simp] theorem trunc_check_nan : trunc_check (nan : FV f) = .ok nan := by simp [trunc_check, limNaN]
@[simp] theorem round_check_nan : round_check (nan : FV f) = .ok nan := by simp [round_check, limNaN]
@[simp] theorem floor_check_inf {s} : floor_check (inf s : FV f) = .ok (inf s) := by simp [floor_check]
@[simp] theorem ceil_check_inf {s} : ceil_check (inf s : FV f) = .ok (inf s) := by simp [ceil_check]
@[simp] theorem trunc_check_inf {s} : trunc_check (inf s : FV f) = .ok (inf s) := by simp [trunc_check]
@[simp] theorem round_check_inf {s} : round_check (inf s : FV f) = .ok (inf s) := by simp [round_check]

end Gcem
