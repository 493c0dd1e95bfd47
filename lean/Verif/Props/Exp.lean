import Verif.Props.Hypot

/-!
# C30: exp, special values and the undefined set
-/

namespace Gcem.Props
open Gcem FV
variable {f : Fmt}

/-! ## the branches of `exp` on finite arguments -/

theorem exp_tiny {q : ℚ} {z : Bool} (h : |q| < minNormal f) : exp (fin q z : FV f) = .ok (fin 1 false) := by
  unfold exp exp_check
  rw [if_neg (by simp), if_neg (by simp), if_pos (limMin_gt_fabs.2 h), i_one]

theorem exp_mid {q : ℚ} {z : Bool} (h : minNormal f ≤ |q|) (h2 : |q| < 2) :
    exp (fin q z : FV f) = .ok (exp_cf (fin q z)) := by
  unfold exp exp_check
  rw [if_neg (by simp), if_neg (by simp), if_neg (by rw [limMin_gt_fabs]; exact not_lt.2 h),
    if_neg (by simp), if_pos]
  rw [i_two, (is_fin q z).fabs.lt_iff (is_fin 2 false)]
  exact h2

theorem exp_large {q : ℚ} {z : Bool} (h2 : 2 ≤ |q|) :
    exp (fin q z : FV f) = exp_split (fin q z) := by
  have := minNormal_lt_one f
  unfold exp exp_check
  rw [if_neg (by simp), if_neg (by simp), if_neg (by rw [limMin_gt_fabs]; exact not_lt.2 (by linarith)),
    if_neg (by simp), if_neg]
  rw [i_two, (is_fin q z).fabs.lt_iff (is_fin 2 false)]
  exact not_lt.2 h2

/-- `whole` part of `exp`'s argument reduction, when it fits. -/
theorem exp_large_ok {q : ℚ} {z : Bool} (hf : f.exact = false) (hx : Valid (fin q z : FV f)) (h2 : 2 ≤ |q|)
    (hW : -2 ^ 63 ≤ wholeOf q ∧ wholeOf q ≤ 2 ^ 63 - 1) :
    ∃ w, exp (fin q z : FV f) = .ok (cast f (pow_integral_llint (L GCEM_E : FV f.ldbl) (wholeOf q))
      * exp_cf (fin (q - wholeOf q) w)) := by
  obtain ⟨⟨w, h1⟩, h3⟩ := find_split hf hx (by linarith)
  rw [if_pos hW] at h3
  refine ⟨w, ?_⟩
  rw [exp_large h2]
  unfold exp_split
  rw [h3, h1]
  rfl

theorem exp_large_ub {q : ℚ} {z : Bool} (hf : f.exact = false) (hx : Valid (fin q z : FV f)) (h2 : 2 ≤ |q|)
    (hW : ¬ (-2 ^ 63 ≤ wholeOf q ∧ wholeOf q ≤ 2 ^ 63 - 1)) :
    exp (fin q z : FV f) = .error .castRange := by
  obtain ⟨⟨w, h1⟩, h3⟩ := find_split hf hx (by linarith)
  rw [if_neg hW] at h3
  rw [exp_large h2]
  unfold exp_split
  rw [h3]
  rfl

theorem wholeOf_bounds (q : ℚ) : (wholeOf q : ℚ) - 2 < q - 2 + 2 ∧ q - 2 < wholeOf q ∧ (wholeOf q : ℚ) ≤ q + 1/2 := by
  have hl := Int.floor_le q
  have hu := Int.lt_floor_add_one q
  unfold wholeOf
  split_ifs with h1 h2 h3 <;> push_cast <;> refine ⟨?_, ?_, ?_⟩ <;> linarith

/-! ## C30 -/

/-- C30: special values. -/
theorem C30_special :
    exp (nan : FV f) = .ok nan ∧ exp (inf true : FV f) = .ok (fin 0 false) ∧
    exp (inf false : FV f) = .ok (inf false) ∧
    ∀ (q : ℚ) (z : Bool), |q| < minNormal f → exp (fin q z : FV f) = .ok (fin 1 false) := by
  refine ⟨by simp [exp, exp_check, limNaN], by simp [exp, exp_check], ?_, fun q z h => exp_tiny h⟩
  unfold exp exp_check
  rw [if_neg (by simp), if_neg (by simp), if_neg (by simp [limMin]), if_pos (by simp)]
  rfl

/-- C30: `float` and `double`.  For a finite argument the call is undefined exactly when the argument
is not in `[-2^63, 2^63)`, although `exp` should be `0` or `+inf` there. -/
theorem C30_undefined (hf : f.exact = false) (ht : f.ty ≠ .ldouble) (q : ℚ) (z : Bool)
    (hx : Valid (fin q z : FV f)) :
    (exp (fin q z : FV f) = .error .castRange ↔ (q < -2 ^ 63 ∨ 2 ^ 63 ≤ q)) ∧
    (¬ (q < -2 ^ 63 ∨ 2 ^ 63 ≤ q) → ∃ r, exp (fin q z : FV f) = .ok r) := by
  have key : (∃ r, exp (fin q z : FV f) = .ok r ∧ ¬ (q < -2 ^ 63 ∨ 2 ^ 63 ≤ q)) ∨
      (exp (fin q z : FV f) = .error .castRange ∧ (q < -2 ^ 63 ∨ 2 ^ 63 ≤ q)) := by
    rcases lt_or_ge |q| 2 with h2 | h2
    · left
      have hh := abs_lt.1 h2
      have hn : ¬ (q < -2 ^ 63 ∨ 2 ^ 63 ≤ q) := by
        push Not; constructor <;> norm_num <;> linarith
      rcases lt_or_ge |q| (minNormal f) with h | h
      · exact ⟨_, exp_tiny h, hn⟩
      · exact ⟨_, exp_mid h h2, hn⟩
    · by_cases hW : -2 ^ 63 ≤ wholeOf q ∧ wholeOf q ≤ 2 ^ 63 - 1
      · left
        obtain ⟨w, hw⟩ := exp_large_ok hf hx h2 hW
        refine ⟨_, hw, ?_⟩
        rintro (h | h)
        · have h3 : (-2 ^ 63 : ℚ) ≤ (wholeOf q : ℚ) := by exact_mod_cast hW.1
          have hl := Int.floor_le q
          have hu := Int.lt_floor_add_one q
          have hle : (wholeOf q : ℚ) ≤ ⌊q⌋ := by
            unfold wholeOf; split_ifs with h4 h5 h6 <;> push_cast <;> linarith
          linarith
        · have h3 : (wholeOf q : ℚ) ≤ 2 ^ 63 - 1 := by exact_mod_cast hW.2
          have hu : (⌊q⌋ : ℚ) ≤ wholeOf q := by
            unfold wholeOf; split_ifs with h4 h5 h6 <;> push_cast <;> linarith
          have : (2 ^ 63 : ℤ) ≤ ⌊q⌋ := Int.le_floor.2 (by push_cast; exact h)
          have : (2 ^ 63 : ℚ) ≤ ⌊q⌋ := by exact_mod_cast this
          linarith
      · right
        refine ⟨exp_large_ub hf hx h2 hW, ?_⟩
        by_contra hc
        push Not at hc
        apply hW
        by_cases hb : 2 ^ (f.prec - 1) ≤ |q|
        · obtain ⟨n, rfl⟩ := int_of_big hf hx.rep hb
          have hwn : wholeOf (n : ℚ) = n := by
            unfold wholeOf; rw [Int.floor_intCast]; norm_num
          rw [hwn]
          constructor
          · have := hc.1; exact_mod_cast this
          · have : (n : ℚ) < ((2 ^ 63 : ℤ) : ℚ) := by push_cast; exact hc.2
            have : n < 2 ^ 63 := by exact_mod_cast this
            omega
        · push Not at hb
          have h3 : (2:ℚ) ^ (f.prec - 1) ≤ 2 ^ 60 :=
            pow_le_pow_right₀ (by norm_num) (by rcases f with ⟨⟨⟩, ⟨⟩⟩ <;> first | decide | exact absurd rfl ht)
          obtain ⟨b0, b1, b2⟩ := wholeOf_bounds q
          obtain ⟨a1, a2⟩ := abs_lt.1 (hb.trans_le h3)
          constructor
          · have : ((-2 ^ 63 : ℤ) : ℚ) ≤ wholeOf q := by push_cast; norm_num at *; linarith
            exact_mod_cast this
          · have : (wholeOf q : ℚ) ≤ ((2 ^ 63 - 1 : ℤ) : ℚ) := by push_cast; norm_num at *; linarith
            exact_mod_cast this
  rcases key with ⟨r, h1, h2⟩ | ⟨h1, h2⟩
  · exact ⟨⟨fun h => by rw [h1] at h; simp at h, fun h => absurd h h2⟩, fun _ => ⟨r, h1⟩⟩
  · exact ⟨⟨fun _ => h2, fun _ => h1⟩, fun h => absurd h2 h⟩

theorem half_of_big {q : ℚ} (hr : Rep x87 q) (hb : 2 ^ 62 ≤ |q|) : ∃ n : ℤ, q = n / 2 := by
  have hq : q ≠ 0 := by rintro rfl; norm_num at hb
  obtain ⟨m, hm, -⟩ := rep_scaled rfl hq hr
  have h1 : ((62 : ℕ) : ℤ) ≤ ilog2 q := by
    rw [le_ilog2_iff hq, pow2_nat]; exact hb
  have h2 : -1 ≤ fexp x87 q := by
    unfold fexp
    have : (x87.prec : ℤ) = 64 := rfl
    omega
  obtain ⟨k, -, hk⟩ := pow2_mult h2
  have h3 : pow2 (-1) = 1 / 2 := by norm_num [pow2_eq]
  rw [h3] at hk
  exact ⟨m * k, by rw [hm, hk]; push_cast; ring⟩

/-- C30: `long double`.  There the half-integers next to the `long long` limits are undefined too. -/
theorem C30_undefined_long_double (q : ℚ) (z : Bool) (hx : Valid (fin q z : FV x87)) :
    (exp (fin q z : FV x87) = .error .castRange ↔ (q < -2 ^ 63 ∨ q = -2 ^ 63 + 1/2 ∨ 2 ^ 63 - 1/2 ≤ q)) ∧
    (¬ (q < -2 ^ 63 ∨ q = -2 ^ 63 + 1/2 ∨ 2 ^ 63 - 1/2 ≤ q) → ∃ r, exp (fin q z : FV x87) = .ok r) := by
  have key : (∃ r, exp (fin q z : FV x87) = .ok r ∧ ¬ (q < -2 ^ 63 ∨ q = -2 ^ 63 + 1/2 ∨ 2 ^ 63 - 1/2 ≤ q)) ∨
      (exp (fin q z : FV x87) = .error .castRange ∧ (q < -2 ^ 63 ∨ q = -2 ^ 63 + 1/2 ∨ 2 ^ 63 - 1/2 ≤ q)) := by
    rcases lt_or_ge |q| 2 with h2 | h2
    · left
      have hh := abs_lt.1 h2
      have hn : ¬ (q < -2 ^ 63 ∨ q = -2 ^ 63 + 1/2 ∨ 2 ^ 63 - 1/2 ≤ q) := by
        push Not; refine ⟨?_, ?_, ?_⟩
        · norm_num; linarith
        · intro h; norm_num at h; linarith
        · norm_num; linarith
      rcases lt_or_ge |q| (minNormal x87) with h | h
      · exact ⟨_, exp_tiny h, hn⟩
      · exact ⟨_, exp_mid h h2, hn⟩
    · have hl := Int.floor_le q
      have hu := Int.lt_floor_add_one q
      have e0 : ((-2 ^ 63 : ℤ) : ℚ) = -2 ^ 63 := by push_cast; rfl
      have iffW : (-2 ^ 63 ≤ wholeOf q ∧ wholeOf q ≤ 2 ^ 63 - 1) ↔
          ¬ (q < -2 ^ 63 ∨ q = -2 ^ 63 + 1/2 ∨ 2 ^ 63 - 1/2 ≤ q) := by
        have hW1 : (-2 ^ 63 ≤ wholeOf q) ↔ ((-2 ^ 63 : ℚ) ≤ wholeOf q) := by
          rw [← e0]; exact Int.cast_le.symm
        have hW2 : (wholeOf q ≤ 2 ^ 63 - 1) ↔ ((wholeOf q : ℚ) ≤ 2 ^ 63 - 1) := by
          rw [show (2 ^ 63 - 1 : ℚ) = ((2 ^ 63 - 1 : ℤ) : ℚ) by norm_num]; exact Int.cast_le.symm
        rw [hW1, hW2]
        push Not
        rcases lt_or_ge 0 q with hq | hq
        · have hb : 2 ^ 63 - 1/2 ≤ q ↔ ¬ ((wholeOf q : ℚ) ≤ 2 ^ 63 - 1) := by
            have hfl : (2 ^ 63 - 1 : ℤ) < ⌊q⌋ + 1 ↔ (2 ^ 63 - 1 : ℚ) ≤ q := by
              rw [Int.lt_add_one_iff, Int.le_floor]; norm_num
            constructor
            · intro h h3
              have h4 : (2 ^ 63 - 1 : ℤ) < ⌊q⌋ + 1 := hfl.2 (by norm_num at h ⊢; linarith)
              have h5 : (2 ^ 63 - 1 : ℚ) ≤ ⌊q⌋ := by
                have : (2 ^ 63 - 1 : ℤ) ≤ ⌊q⌋ := by omega
                exact_mod_cast this
              unfold wholeOf at h3
              split_ifs at h3 with h6
              · push_cast at h3; norm_num at h3 h5; linarith
              · push Not at h6; norm_num at h3 h; linarith
            · intro h
              by_contra h3
              apply h
              push Not at h3
              have h4 := (wholeOf_bounds q).2.2
              have h5 : (wholeOf q : ℚ) < ((2 ^ 63 : ℤ) : ℚ) := by push_cast; norm_num at *; linarith
              have h6 : wholeOf q < 2 ^ 63 := by exact_mod_cast h5
              have h7 : wholeOf q ≤ 2 ^ 63 - 1 := by omega
              exact hW2.1 h7
          have hlo : (-2 ^ 63 : ℚ) ≤ wholeOf q := by
            have := (wholeOf_bounds q).2.1; norm_num; linarith
          constructor
          · rintro ⟨-, h⟩
            refine ⟨by norm_num; linarith, ?_, ?_⟩
            · intro h; norm_num at h; linarith
            · by_contra h3; exact (hb.1 (not_lt.1 h3)) h
          · rintro ⟨-, -, h⟩
            refine ⟨hlo, ?_⟩
            by_contra h3; exact absurd (hb.2 h3) (not_le.2 h)
        · have hhi : (wholeOf q : ℚ) ≤ 2 ^ 63 - 1 := by
            have := (wholeOf_bounds q).2.2; norm_num at *; linarith
          constructor
          · rintro ⟨h, -⟩
            refine ⟨?_, ?_, by norm_num; linarith⟩
            · have hle : (wholeOf q : ℚ) ≤ ⌊q⌋ := by
                unfold wholeOf; split_ifs with h4 h5 h6 <;> push_cast <;> linarith
              linarith
            · intro h1
              have hf1 : ⌊q⌋ = -2 ^ 63 := by
                rw [Int.floor_eq_iff]; push_cast; rw [h1]; norm_num
              unfold wholeOf at h
              rw [hf1, if_pos (by rw [h1]; norm_num), if_neg (by rw [h1]; norm_num),
                if_pos (by rw [h1]; norm_num)] at h
              norm_num at h
          · rintro ⟨h1, h2, -⟩
            refine ⟨?_, hhi⟩
            have hf1 : (-2 ^ 63 : ℤ) ≤ ⌊q⌋ := Int.le_floor.2 (by rw [e0]; exact h1)
            rcases hf1.eq_or_lt with h3 | h3
            · -- floor is the minimum: the fraction must be below one half
              have hq3 : q < -2 ^ 63 + 1 := by rw [← h3] at hu; push_cast at hu; linarith
              obtain ⟨n, hn⟩ := half_of_big hx.rep (by rw [abs_of_nonpos hq]; norm_num at *; linarith)
              have hn1 : (n : ℚ) < ((-2 ^ 64 + 2 : ℤ) : ℚ) := by push_cast; norm_num at *; linarith
              have hn2 : n < -2 ^ 64 + 2 := by exact_mod_cast hn1
              have hn3 : ((-2 ^ 64 : ℤ) : ℚ) ≤ n := by push_cast; norm_num at *; linarith
              have hn4 : -2 ^ 64 ≤ n := by exact_mod_cast hn3
              have hn5 : n ≠ -2 ^ 64 + 1 := by
                rintro rfl; apply h2; rw [hn]; norm_num
              have hn6 : n = -2 ^ 64 := by omega
              unfold wholeOf
              rw [← h3, if_neg (by rw [hn, hn6]; norm_num), e0]
            · have h4 : (-2 ^ 63 + 1 : ℤ) ≤ ⌊q⌋ := by omega
              have h5 : (((-2 ^ 63 + 1 : ℤ)) : ℚ) ≤ ⌊q⌋ := by exact_mod_cast h4
              have h6 : (⌊q⌋ : ℚ) - 1 ≤ wholeOf q := by
                unfold wholeOf; split_ifs <;> push_cast <;> linarith
              push_cast at h5
              linarith
      by_cases hW : -2 ^ 63 ≤ wholeOf q ∧ wholeOf q ≤ 2 ^ 63 - 1
      · left
        obtain ⟨w, hw⟩ := exp_large_ok rfl hx h2 hW
        exact ⟨_, hw, iffW.1 hW⟩
      · right
        exact ⟨exp_large_ub rfl hx h2 hW, by by_contra h; exact hW (iffW.2 h)⟩
  rcases key with ⟨r, h1, h2⟩ | ⟨h1, h2⟩
  · exact ⟨⟨fun h => by rw [h1] at h; simp at h, fun h => absurd h h2⟩, fun _ => ⟨r, h1⟩⟩
  · exact ⟨⟨fun _ => h2, fun _ => h1⟩, fun h => absurd h2 h⟩

example : exp (fin (-2 ^ 63 + 1/2) false : FV x87) = .error .castRange ∧
    Valid (fin (-2 ^ 63 + 1/2) false : FV x87) ∧ exp (fin (10 ^ 19) false : FV binary64) = .error .castRange ∧
    exp (fin (-10 ^ 19) false : FV binary64) = .error .castRange := by decide +kernel

example : exp (fin 1 false : FV binary64) = .ok (fin (6121026514868073 / 2 ^ 51) false) := by decide +kernel

end Gcem.Props
