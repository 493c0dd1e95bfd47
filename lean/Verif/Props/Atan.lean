import Verif.Props.Trig
import Verif.Props.Sqrt

/-!
# C44, C46, C47: inverse trigonometric functions — symmetry, special values, quadrant table
-/

namespace Gcem.Props
open Gcem FV
variable {f : Fmt}

theorem neg_lt_zero_iff {x : FV f} : -x < i 0 ↔ (fin 0 false : FV f) < x := by
  rw [i_zero]
  cases x with
  | nan => simp
  | inf s => cases s <;> simp
  | fin q z => rw [neg_fin, fin_lt, fin_lt]; exact neg_lt_zero

theorem tiny_of_neither {x : FV f} (hn : x ≠ nan) (h : ¬ x < i 0) (h2 : ¬ (fin 0 false : FV f) < x) :
    ∃ z, x = fin 0 z := by
  rw [i_zero] at h
  cases x with
  | nan => exact absurd rfl hn
  | inf s => cases s <;> simp at h h2
  | fin q z =>
    rw [fin_lt] at h h2
    exact ⟨z, by rw [show q = 0 by linarith]⟩

theorem not_tiny_zero {z : Bool} : (limMin : FV f) > fabs (fin 0 z) := by
  rw [limMin_gt_fabs, abs_zero]; exact minNormal_pos f

/-- The common shape of `atan` and `tanh`: odd, bit for bit, except that tiny arguments give `+0`. -/
theorem odd_shape (F G : FV f → FV f)
    (hF : ∀ x, F x = if is_nan x then limNaN else if limMin > fabs x then i 0
      else if x < i 0 then -G (-x) else G x) (x : FV f) :
    (¬ (limMin : FV f) > fabs x → F (-x) = -F x) ∧ F (-x) ≃ -F x := by
  have key : ¬ (limMin : FV f) > fabs x → F (-x) = -F x := by
    intro ht
    by_cases hn : x = nan
    · subst hn; rw [neg_nan, hF]; simp [limNaN]
    have hn' : ¬ is_nan x = true := by rw [is_nan_iff]; exact hn
    rw [hF (-x), hF x, is_nan_neg, fabs_neg, if_neg hn', if_neg hn', if_neg ht, if_neg ht, neg_neg']
    by_cases h : x < i 0
    · rw [if_pos h, if_neg, neg_neg']
      rw [neg_lt_zero_iff]
      rw [i_zero] at h
      intro h2
      cases x with
      | nan => exact nan_lt h
      | inf s => cases s <;> simp at h h2
      | fin q z => rw [fin_lt] at h h2; linarith
    · by_cases h2 : (fin 0 false : FV f) < x
      · rw [if_pos (neg_lt_zero_iff.2 h2), if_neg h]
      · obtain ⟨z, rfl⟩ := tiny_of_neither hn h h2
        exact absurd not_tiny_zero ht
  refine ⟨key, ?_⟩
  by_cases ht : (limMin : FV f) > fabs x
  · have hn : ¬ is_nan x = true := by
      rw [is_nan_iff]; rintro rfl; rw [fabs_nan, gt_iff] at ht; exact nan_lt ht
    rw [hF (-x), hF x, is_nan_neg, fabs_neg, if_neg hn, if_neg hn, if_pos ht, if_pos ht, i_zero, neg_fin]
    simp [Same]
  · exact Same.of_eq (key ht)

theorem atan_def (x : FV f) : atan x = if is_nan x then limNaN else if limMin > fabs x then i 0
      else if x < i 0 then -atan_begin (-x) else atan_begin x := rfl

theorem atan_tiny {q : ℚ} {z : Bool} (h : |q| < minNormal f) : atan (fin q z : FV f) = fin 0 false := by
  rw [atan_def, if_neg (by simp), if_pos (limMin_gt_fabs.2 h), i_zero]

theorem atan_nan : atan (nan : FV f) = nan := by rw [atan_def]; simp [limNaN]

/-- C44: `atan` is odd bit for bit; only for arguments below the least normal value, where the result is `+0`
on both sides, is the sign of zero lost. -/
theorem C44_odd (x : FV f) : (¬ (limMin : FV f) > fabs x → atan (-x) = -atan x) ∧ atan (-x) ≃ -atan x :=
  odd_shape atan atan_begin atan_def x

/-- C44: special values for the three types: NaN, tiny arguments, and `±inf ↦ ±π/2` (the stored constant). -/
theorem C44_special :
    atan (nan : FV f) = nan ∧
    (∀ (q : ℚ) (z : Bool), |q| < minNormal f → atan (fin q z : FV f) = fin 0 false) ∧
    atan (inf false : FV binary32) = L HALF_PI ∧ atan (inf false : FV binary64) = L HALF_PI ∧
    atan (inf false : FV x87) = L HALF_PI ∧ atan (inf true : FV binary32) = -L HALF_PI ∧
    atan (inf true : FV binary64) = -L HALF_PI ∧ atan (inf true : FV x87) = -L HALF_PI :=
  ⟨atan_nan, fun _ _ h => atan_tiny h, by decide +kernel, by decide +kernel, by decide +kernel,
    by decide +kernel, by decide +kernel, by decide +kernel⟩

example : atan (fin 1 false : FV binary64) = fin (884279719003555/1125899906842624) false := by decide +kernel

/-! ## C46 -/

theorem atan2_def (y x : FV f) : atan2 y x = atan2_compute y x := rfl

theorem any_nan_iff {x y : FV f} : any_nan x y = true ↔ (x = nan ∨ y = nan) := by
  simp [any_nan]

/-- C46: the quadrant table for arguments that are not tiny. -/
theorem C46_table (y x : FV f) (hy : y ≠ nan) (hx : x ≠ nan) (hxt : ¬ (limMin : FV f) > fabs x) :
    (fin 0 false < x → atan2 y x = atan (y / x)) ∧
    (x < fin 0 false → y < fin 0 false → atan2 y x = atan (y / x) - L PI) ∧
    (x < fin 0 false → ¬ y < fin 0 false → atan2 y x = atan (y / x) + L PI) := by
  have h0 : ¬ any_nan y x = true := by rw [any_nan_iff]; tauto
  rw [atan2_def]; unfold atan2_compute
  rw [if_neg h0, if_neg hxt, i_zero]
  refine ⟨fun h => ?_, fun h h2 => ?_, fun h h2 => ?_⟩
  · rw [if_neg]
    intro h2
    cases x with
    | nan => exact nan_lt h2
    | inf s => cases s <;> simp at h h2
    | fin q z => rw [fin_lt] at h h2; linarith
  · rw [if_pos h, if_pos h2]
  · rw [if_pos h, if_neg h2]

/-- C46: `x` zero (or tiny): `±π/2` by the sign of `y`; both zero or tiny: decided by the signs of the zeros. -/
theorem C46_axis (y x : FV f) (hy : y ≠ nan) (hxt : (limMin : FV f) > fabs x) :
    (¬ (limMin : FV f) > fabs y → fin 0 false < y → atan2 y x = L HALF_PI) ∧
    (¬ (limMin : FV f) > fabs y → y < fin 0 false → atan2 y x = -L HALF_PI) ∧
    (x = fin 0 false → y = fin 0 false → atan2 y x = fin 0 false) ∧
    (x = fin 0 false → y = fin 0 true → atan2 y x = fin 0 true) ∧
    (x = fin 0 true → y = fin 0 false → atan2 y x = L PI) ∧
    (x = fin 0 true → y = fin 0 true → atan2 y x = -L PI) := by
  have hx : x ≠ nan := by rintro rfl; rw [fabs_nan, gt_iff] at hxt; exact nan_lt hxt
  have h0 : ¬ any_nan y x = true := by rw [any_nan_iff]; tauto
  have n1 : neg_zero (fin 0 true : FV f) = true := (C13_neg_zero _ (valid_zero _)).2 rfl
  have n2 : ¬ neg_zero (fin 0 false : FV f) = true := by
    rw [C13_neg_zero _ (valid_zero _)]; simp
  rw [atan2_def]; unfold atan2_compute
  rw [if_neg h0, if_pos hxt, i_zero]
  refine ⟨fun h h2 => ?_, fun h h2 => ?_, ?_, ?_, ?_, ?_⟩
  · rw [if_neg h, if_pos h2]
  · rw [if_neg h, if_neg]
    intro h3
    cases y with
    | nan => exact nan_lt h2
    | inf s => cases s <;> simp at h3 h2
    | fin q z => rw [gt_iff, fin_lt] at h3; rw [fin_lt] at h2; linarith
  · rintro rfl rfl; rw [if_pos not_tiny_zero, if_neg n2, if_neg n2]
  · rintro rfl rfl; rw [if_pos not_tiny_zero, if_pos n1, if_neg n2, neg_fin]; simp
  · rintro rfl rfl; rw [if_pos not_tiny_zero, if_neg n2, if_pos n1]
  · rintro rfl rfl; rw [if_pos not_tiny_zero, if_pos n1, if_pos n1]

/-- C46: NaN arguments. -/
theorem C46_nan (y x : FV f) (h : y = nan ∨ x = nan) : atan2 y x = nan := by
  rw [atan2_def]; unfold atan2_compute
  rw [if_pos (any_nan_iff.2 h)]; rfl

/-- C46: antisymmetry in the first argument, up to the sign of a zero, when `x` is neither zero nor tiny and
`y` is not zero. -/
theorem C46_antisymmetric (y x : FV f) (hxt : ¬ (limMin : FV f) > fabs x) (hy0 : ∀ z, y ≠ fin 0 z) :
    atan2 (-y) x ≃ -atan2 y x := by
  by_cases hy : y = nan
  · subst hy; rw [neg_nan, C46_nan _ _ (Or.inl rfl)]; rfl
  have hy' : -y ≠ nan := by intro hc; apply hy; rw [← neg_neg' y, hc]; rfl
  by_cases hx : x = nan
  · rw [C46_nan _ _ (Or.inr hx), C46_nan _ _ (Or.inr hx)]; rfl
  obtain ⟨a1, a2, a3⟩ := C46_table y x hy hx hxt
  obtain ⟨b1, b2, b3⟩ := C46_table (-y) x hy' hx hxt
  have ho : atan (-y / x) ≃ -atan (y / x) := by rw [neg_div']; exact (C44_odd _).2
  by_cases hp : (fin 0 false : FV f) < x
  · rw [a1 hp, b1 hp]; exact ho
  have hneg : x < fin 0 false := by
    by_contra h
    obtain ⟨z, rfl⟩ := tiny_of_neither hx (by rw [i_zero]; exact h) hp
    exact hxt not_tiny_zero
  by_cases h : y < fin 0 false
  · have h2 : ¬ -y < fin 0 false := by
      rw [← i_zero, neg_lt_zero_iff]
      intro h3
      cases y with
      | nan => exact hy rfl
      | inf s => cases s <;> simp at h3 h
      | fin q z => rw [fin_lt] at h3 h; linarith
    rw [a2 hneg h, b3 hneg h2]
    have e1 : atan (-y / x) + L PI ≃ -atan (y / x) + L PI := ho.add (Same.refl _)
    refine e1.trans ?_
    rw [add_comm']
    exact (neg_sub_same (atan (y / x)) (L PI)).symm
  · have h2 : -y < fin 0 false := by
      rw [← i_zero, neg_lt_zero_iff]
      by_contra h3
      obtain ⟨z, rfl⟩ := tiny_of_neither hy (by rw [i_zero]; exact h) h3
      exact hy0 z rfl
    rw [a3 hneg h, b2 hneg h2]
    have e1 : atan (-y / x) - L PI ≃ -atan (y / x) - L PI := ho.sub (Same.refl _)
    refine e1.trans ?_
    rw [sub_eq_add_neg'']
    exact neg_add_same _ _

/-- C46 (deviations from the C library): both arguments infinite give NaN, and the sign of a zero `y` is ignored
for `x ≠ 0`: `atan2(-0.0,-1.0)` is `+π` and `atan2(-0.0,1.0)` is `+0`. -/
theorem C46_deviations :
    atan2 (inf false : FV binary64) (inf false) = nan ∧
    atan2 (fin 0 true : FV binary64) (fin (-1) false) = L PI ∧
    atan2 (fin 0 true : FV binary64) (fin 1 false) = fin 0 false := by decide +kernel

/-! ## C47 -/

theorem asin_nan : asin (nan : FV f) = .ok nan := by simp [asin, asin_check, limNaN]

/-- C47: odd, bit for bit for every argument except a zero. -/
theorem C47_asin_odd (x : FV f) : ((∀ z, x ≠ fin 0 z) → asin (-x) = (asin x).map Neg.neg) ∧
    SameRes (asin (-x)) ((asin x).map Neg.neg) := by
  have key : (∀ z, x ≠ fin 0 z) → asin (-x) = (asin x).map Neg.neg := by
    intro h0
    by_cases hn : x = nan
    · subst hn; rw [neg_nan, asin_nan]; rfl
    have hn' : ¬ is_nan x = true := by rw [is_nan_iff]; exact hn
    unfold asin asin_check
    rw [is_nan_neg, if_neg hn', if_neg hn', neg_neg']
    by_cases h : x < i 0
    · rw [if_pos h, if_neg]
      · cases asin_compute (-x) <;> simp [bind, Except.bind, Except.map]
      · rw [neg_lt_zero_iff]
        rw [i_zero] at h
        intro h2
        cases x with
        | nan => exact nan_lt h
        | inf s => cases s <;> simp at h h2
        | fin q z => rw [fin_lt] at h h2; linarith
    · by_cases h2 : (fin 0 false : FV f) < x
      · rw [if_pos (neg_lt_zero_iff.2 h2), if_neg h]
        cases asin_compute x <;> rfl
      · obtain ⟨z, rfl⟩ := tiny_of_neither hn h h2
        exact absurd rfl (h0 z)
  refine ⟨key, ?_⟩
  by_cases h0 : ∃ z, x = fin 0 z
  · obtain ⟨z, rfl⟩ := h0
    have hz : ∀ z, asin (fin 0 z : FV f) = .ok (fin 0 false) := by
      intro z
      have hm := minNormal_lt_one f
      unfold asin asin_check asin_compute
      rw [if_neg (by simp), if_neg (by rw [i_zero, fin_lt]; exact lt_irrefl _), if_neg (by rw [i_one, gt_iff, fin_lt]; norm_num),
        if_neg, if_pos not_tiny_zero, i_zero]
      rw [i_one, fin_sub, show (0:ℚ) - 1 = -1 by norm_num, mk_of_rep rep_one.neg (nov' (q := -1) (by norm_num)),
        limMin_gt_fabs]
      norm_num; linarith
    rw [neg_fin, _root_.neg_zero, hz, hz]
    simp [SameRes, Except.map, neg_fin, Same]
  · push Not at h0
    exact SameRes.of_eq (key h0)

/-- C47: domain.  NaN for every `|x| > 1` and for NaN. -/
theorem C47_domain (x : FV f) (h : x = nan ∨ fabs x > fin 1 false) : asin x = .ok nan ∧ acos x = .ok nan := by
  by_cases hn : x = nan
  · subst hn; exact ⟨asin_nan, by simp [acos, acos_check, limNaN]⟩
  have h := h.resolve_left hn
  have hn' : ¬ is_nan x = true := by rw [is_nan_iff]; exact hn
  constructor
  · unfold asin asin_check asin_compute
    rw [if_neg hn']
    by_cases h0 : x < i 0
    · rw [if_pos h0, if_pos]
      · rfl
      · rw [i_zero] at h0
        rw [i_one]
        cases x with
        | nan => exact absurd rfl hn
        | inf s => cases s <;> simp at h0 ⊢
        | fin q z =>
          rw [fin_lt] at h0
          obtain ⟨w, hw⟩ := fabs_fin' (f := f) q z
          rw [hw, gt_iff, fin_lt, abs_of_neg h0] at h
          rw [neg_fin, gt_iff, fin_lt]; exact h
    · rw [if_neg h0, if_pos]
      · rfl
      · rw [i_zero] at h0
        rw [i_one]
        cases x with
        | nan => exact absurd rfl hn
        | inf s => cases s <;> simp at h0 ⊢
        | fin q z =>
          rw [fin_lt] at h0
          obtain ⟨w, hw⟩ := fabs_fin' (f := f) q z
          rw [hw, gt_iff, fin_lt, abs_of_nonneg (not_lt.1 h0)] at h
          rw [gt_iff, fin_lt]; exact h
  · unfold acos acos_check acos_compute
    rw [if_neg hn', fabs_neg, i_one, if_pos h, if_pos h]
    split
    · rfl
    · simp [bind, Except.bind, limNaN]

/-- C47: `acos(-x) = π - acos(x)` as computed, for `x > 0`. -/
theorem C47_acos_reflect (x : FV f) (h : fin 0 false < x) : acos (-x) = (acos x).map fun r => L PI - r := by
  have hn : x ≠ nan := by rintro rfl; exact lt_nan h
  have hn' : ¬ is_nan x = true := by rw [is_nan_iff]; exact hn
  unfold acos acos_check
  rw [is_nan_neg, if_neg hn', if_neg hn', i_zero, if_pos (gt_iff.2 h), if_neg, neg_neg']
  · cases acos_compute x <;> rfl
  · intro h2
    cases x with
    | nan => exact hn rfl
    | inf s => cases s <;> simp at h h2
    | fin q z => rw [neg_fin, gt_iff, fin_lt] at h2; rw [fin_lt] at h; linarith

/-- C47: end points. -/
theorem C47_endpoints (z : Bool) :
    asin (fin 1 z : FV f) = .ok (L HALF_PI) ∧ asin (fin (-1) z : FV f) = .ok (-L HALF_PI) ∧
    acos (fin 1 z : FV f) = .ok (fin 0 false) ∧ SameRes (acos (fin (-1) z : FV f)) (.ok (L PI)) := by
  have hm := minNormal_pos f
  have hs : ∀ z, (limMin : FV f) > fabs ((fin 1 z : FV f) - i 1) := by
    intro z; rw [i_one, fin_sub, sub_self, mk_zero, limMin_gt_fabs, abs_zero]; exact hm
  have h1 : ∀ z, ¬ (fin 1 z : FV f) > i 1 := by intro z; rw [i_one, gt_iff, fin_lt]; exact lt_irrefl _
  have h2 : ∀ z, ¬ fabs (fin 1 z : FV f) > i 1 := by
    intro z
    obtain ⟨w, hw⟩ := fabs_fin' (f := f) 1 z
    rw [hw, i_one, gt_iff, fin_lt]; norm_num
  have hneg : -(fin (-1) z : FV f) = fin 1 z := by rw [neg_fin]; norm_num
  refine ⟨?_, ?_, ?_, ?_⟩
  · unfold asin asin_check asin_compute
    rw [if_neg (by simp), if_neg (by rw [i_zero, fin_lt]; norm_num), if_neg (h1 z), if_pos (hs z)]
  · unfold asin asin_check asin_compute
    rw [if_neg (by simp), if_pos (by rw [i_zero, fin_lt]; norm_num), hneg, if_neg (h1 z), if_pos (hs z)]; rfl
  · unfold acos acos_check acos_compute
    rw [if_neg (by simp), if_pos (by rw [i_zero, gt_iff, fin_lt]; norm_num), if_neg (h2 z), if_pos (hs z), i_zero]
  · unfold acos acos_check acos_compute
    rw [if_neg (by simp), if_neg (by rw [i_zero, gt_iff, fin_lt]; norm_num), hneg, if_neg (h2 z), if_pos (hs z)]
    obtain ⟨c, hc, c1, -⟩ := PI_val (f := f)
    have hv := valid_L (f := f) PI
    simp only [bind, Except.bind, SameRes, i_zero]
    rw [hc] at hv ⊢
    rw [fin_sub, sub_zero, mk_of_rep hv.rep hv.novf]
    simp [Same]

/-- C47: no undefined behaviour for any argument. -/
theorem C47_total (hf : f.exact = false) (x : FV f) : (∃ r, asin x = .ok r) ∧ (∃ r, acos x = .ok r) := by
  have h1 : ∀ x : FV f, ∃ r, asin_compute x = .ok r := by
    intro x
    unfold asin_compute
    obtain ⟨⟨s, hs⟩, -⟩ := C25_total hf (i 1 - x * x) (valid_sub _ _)
    rw [hs]
    split_ifs <;> exact ⟨_, rfl⟩
  have h2 : ∀ x : FV f, ∃ r, acos_compute x = .ok r := by
    intro x
    unfold acos_compute
    obtain ⟨⟨s, hs⟩, -⟩ := C25_total hf (i 1 - x * x) (valid_sub _ _)
    rw [hs]
    split_ifs <;> exact ⟨_, rfl⟩
  constructor
  · unfold asin asin_check
    obtain ⟨r, hr⟩ := h1 x
    obtain ⟨r', hr'⟩ := h1 (-x)
    rw [hr, hr']
    split_ifs <;> exact ⟨_, rfl⟩
  · unfold acos acos_check
    obtain ⟨r, hr⟩ := h2 x
    obtain ⟨r', hr'⟩ := h2 (-x)
    rw [hr, hr']
    split_ifs <;> exact ⟨_, rfl⟩

example : asin (fin (1/2) false : FV binary64) = .ok (fin (2358079250676147/4503599627370496) false) ∧
    acos (fin (1/2) false : FV binary64) = .ok (fin (2358079250676147/2251799813685248) false) := by decide +kernel

end Gcem.Props
