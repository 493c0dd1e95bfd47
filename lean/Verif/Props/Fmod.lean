import Verif.Fp.Split

/-!
# C22–C24, C31: fmod and the whole/fraction split
-/

namespace Gcem.Props
open Gcem FV
variable {f : Fmt}

/-- The floor of a rounded quotient of two integers below `2^p` is the floor of the quotient. -/
theorem floor_rnd_div {a b : ℤ} (ha : 0 < a) (hb : 0 < b) (hap : a < 2 ^ f.prec) :
    ⌊rnd f ((a : ℚ) / b)⌋ = ⌊(a : ℚ) / b⌋ := by
  have ha' : (0:ℚ) < a := by exact_mod_cast ha
  have hb' : (0:ℚ) < b := by exact_mod_cast hb
  have hq : (0:ℚ) < (a : ℚ) / b := by positivity
  have hb1 : (1:ℚ) ≤ b := by exact_mod_cast hb
  have hqa : (a : ℚ) / b ≤ a := by rw [div_le_iff₀ hb']; nlinarith
  have hfl := Int.floor_le ((a : ℚ) / b)
  have hf0 : 0 ≤ ⌊(a : ℚ) / b⌋ := Int.floor_nonneg.2 hq.le
  have hn : ⌊(a : ℚ) / b⌋ < 2 ^ f.prec := by
    have : (⌊(a : ℚ) / b⌋ : ℚ) ≤ a := hfl.trans hqa
    have : ⌊(a : ℚ) / b⌋ ≤ a := by exact_mod_cast this
    omega
  rw [Int.floor_eq_iff]
  constructor
  · exact le_rnd_of_rep (rep_int (by rw [abs_of_nonneg hf0]; exact hn.le)) hfl
  · -- the quotient is at least 1/b below the next integer
    have hgap : (a : ℚ) / b + 1 / b ≤ ⌊(a : ℚ) / b⌋ + 1 := by
      rw [← add_div, div_le_iff₀ hb']
      have hlt := Int.lt_floor_add_one ((a : ℚ) / b)
      rw [div_lt_iff₀ hb'] at hlt
      have : a < (⌊(a : ℚ) / b⌋ + 1) * b := by exact_mod_cast hlt
      have : a + 1 ≤ (⌊(a : ℚ) / b⌋ + 1) * b := by omega
      exact_mod_cast this
    have hnorm : minNormal f ≤ |(a : ℚ) / b| ∨ |(a:ℚ) / b| < minNormal f := le_or_gt _ _
    rcases hnorm with h | h
    · have herr := rnd_err_rel h
      rw [abs_of_pos hq] at herr
      have hu : uro f * ((a : ℚ) / b) < 1 / b := by
        rw [← mul_div_assoc]
        apply div_lt_div_of_pos_right _ hb'
        have : uro f * 2 ^ f.prec = 1 := by
          unfold uro
          rw [← pow2_nat, ← pow2_add]; simp [pow2_zero]
        have h2 : (a : ℚ) < 2 ^ f.prec := by exact_mod_cast hap
        have := mul_lt_mul_of_pos_left h2 (uro_pos f)
        linarith
      have := (abs_le.1 herr).2
      linarith
    · rw [abs_of_pos hq] at h
      have h14 := minNormal_lt_one f
      have : rnd f ((a:ℚ)/b) ≤ pow2 (-2) :=
        rnd_le_of_rep (rep_pow2 (by rcases f with ⟨⟨⟩, ⟨⟩⟩ <;> decide))
          (by have : pow2 (-2) = 1/4 := by norm_num [pow2_eq]
              rw [this]; linarith)
      have h4 : pow2 (-2) = 1/4 := by norm_num [pow2_eq]
      have : (0:ℚ) ≤ ⌊(a : ℚ) / b⌋ := by exact_mod_cast hf0
      linarith

theorem ratTrunc_rnd_div {a b : ℤ} (hb : b ≠ 0) (hap : |a| < 2 ^ f.prec) :
    ratTrunc (rnd f ((a : ℚ) / b)) = a.tdiv b := by
  have key : ∀ a b : ℤ, 0 ≤ a → 0 < b → a < 2 ^ f.prec →
      ratTrunc (rnd f ((a : ℚ) / b)) = a.tdiv b := by
    intro a b ha hb hap
    rcases ha.eq_or_lt with h | h
    · subst h; simp [rnd_zero, ratTrunc]
    · have hq : (0:ℚ) ≤ (a : ℚ) / b := by positivity
      rw [ratTrunc_of_nonneg (rnd_nonneg hq), floor_rnd_div h hb hap, Int.tdiv_eq_ediv_of_nonneg ha]
      obtain ⟨n, rfl⟩ := Int.eq_ofNat_of_zero_le hb.le
      have := Rat.floor_intCast_div_natCast a n
      exact_mod_cast this
  have keyb : ∀ a b : ℤ, 0 ≤ a → b ≠ 0 → a < 2 ^ f.prec →
      ratTrunc (rnd f ((a : ℚ) / b)) = a.tdiv b := by
    intro a b ha hb hap
    rcases lt_or_gt_of_ne hb with h | h
    · have := key a (-b) ha (by omega) hap
      rw [Int.tdiv_neg] at this
      push_cast at this
      rw [div_neg, rnd_neg, ratTrunc_neg] at this
      omega
    · exact key a b ha h hap
  rcases le_total 0 a with h | h
  · exact keyb a b h hb (by rwa [abs_of_nonneg h] at hap)
  · have := keyb (-a) b (by omega) hb (by rwa [abs_of_nonpos h] at hap)
    rw [Int.neg_tdiv] at this
    push_cast at this
    rw [neg_div, rnd_neg, ratTrunc_neg] at this
    omega

theorem normal_rnd {q : ℚ} (h : minNormal f ≤ |q|) : minNormal f ≤ |rnd f q| := by
  rw [abs_rnd]
  refine le_rnd_of_rep (rep_pow2 ?_) h
  rcases f with ⟨⟨⟩, ⟨⟩⟩ <;> decide

theorem int_quot_normal {a b : ℤ} (ha : a ≠ 0) (hb : b ≠ 0) (hbp : |b| < 2 ^ f.prec) :
    minNormal f ≤ |(a : ℚ) / b| := by
  have h1 : (1:ℚ) ≤ |(a:ℚ)| := by rw [← Int.cast_abs]; exact_mod_cast Int.one_le_abs ha
  have h2 : (0:ℚ) < |(b:ℚ)| := by positivity
  have h3 : |(b:ℚ)| ≤ 2 ^ f.prec := by rw [← Int.cast_abs]; exact_mod_cast hbp.le
  rw [abs_div, le_div_iff₀ h2]
  have h4 : minNormal f * 2 ^ f.prec ≤ 1 := by
    unfold minNormal; rw [← pow2_nat, ← pow2_add, ← pow2_zero]
    apply pow2_le; rcases f with ⟨⟨⟩, ⟨⟩⟩ <;> decide
  have := minNormal_pos f
  nlinarith

/-- C22.  For integer-valued arguments below `2^p` (in any of the three types) `fmod` is the exact
truncated remainder `Int.tmod`; the sign of a zero result is not specified. -/
theorem C22_fmod_integers (hf : f.exact = false) (a b : ℤ) (za zb : Bool)
    (hb : b ≠ 0) (hap : |a| < 2 ^ f.prec) (hbp : |b| < 2 ^ f.prec) :
    ∃ z, fmod (fin a za : FV f) (fin b zb) = .ok (fin (Int.tmod a b : ℤ) z) := by
  have hbq : (b : ℚ) ≠ 0 := by exact_mod_cast hb
  unfold fmod fmod_check
  simp only [any_nan, all_finite, is_nan_fin, is_finite_fin, Bool.or_self, Bool.false_eq_true,
    Bool.and_self, Bool.not_true, if_false]
  rw [fin_div hbq]
  set q := (a : ℚ) / b with hqd
  have hle : |q| ≤ |(a : ℚ)| := by
    rw [hqd, abs_div]
    have : (1:ℚ) ≤ |(b:ℚ)| := by rw [← Int.cast_abs]; exact_mod_cast Int.one_le_abs hb
    exact div_le_self (abs_nonneg _) this
  have ho : overflows f (rnd f q) = false := by
    have h1 : |rnd f q| ≤ |((a : ℤ) : ℚ)| :=
      abs_rnd_le_of_rep (by rw [← Int.cast_abs]; exact rep_int (by rw [abs_abs]; exact hap.le)) hle
    exact overflows_of_abs_le h1 (overflows_int hap.le)
  have hv := valid_mk (f := f) q (sign (fin a za : FV f) ^^ sign (fin b zb : FV f))
  rw [mk_fin ho] at hv ⊢
  have hN : Normal f (rnd f q) := by
    by_cases ha : a = 0
    · left; rw [hqd, ha]; simp [rnd_zero]
    · right; exact normal_rnd (int_quot_normal ha hb hbp)
  unfold trunc
  rw [trunc_check_eq hf hv hN]
  simp only [bind, Except.bind]
  rw [ratTrunc_rnd_div hb hap]
  have hmul : |a.tdiv b * b| ≤ |a| := by
    rw [abs_mul, Int.abs_eq_natAbs, Int.abs_eq_natAbs, Int.abs_eq_natAbs, Int.natAbs_tdiv]
    exact_mod_cast Nat.div_mul_le_self _ _
  have e1 : ((a.tdiv b : ℤ) : ℚ) * (b : ℚ) = ((a.tdiv b * b : ℤ) : ℚ) := by push_cast; ring
  have e2 : (a : ℚ) - ((a.tdiv b * b : ℤ) : ℚ) = ((a.tmod b : ℤ) : ℚ) := by
    rw [← Int.cast_sub]; congr 1
    have := Int.mul_tdiv_add_tmod a b
    rw [mul_comm] at this; omega
  have hmod : |a.tmod b| ≤ |a| := by
    rw [Int.abs_eq_natAbs, Int.abs_eq_natAbs, Int.natAbs_tmod]
    exact_mod_cast Nat.mod_le _ _
  rw [fin_mul_rep (by rw [e1]; exact rep_int (hmul.trans hap.le))
    (by rw [e1]; exact overflows_int (hmul.trans hap.le)), e1,
    fin_sub_rep (by rw [e2]; exact rep_int (hmod.trans hap.le))
    (by rw [e2]; exact overflows_int (hmod.trans hap.le)), e2]
  exact ⟨_, rfl⟩

/-- C22: the remainder is below the divisor in magnitude and has the sign of the dividend
(spec-level facts about the value returned by `C22_fmod_integers`). -/
theorem C22_remainder_bounds (hf : f.exact = false) (a b : ℤ) (za zb : Bool)
    (hb : b ≠ 0) (hap : |a| < 2 ^ f.prec) (hbp : |b| < 2 ^ f.prec) :
    ∃ r z, fmod (fin a za : FV f) (fin b zb) = .ok (fin r z) ∧ |r| < |(b:ℚ)| ∧
      0 ≤ r * a ∧ ∃ k : ℤ, (a : ℚ) = k * b + r := by
  obtain ⟨z, h⟩ := C22_fmod_integers hf a b za zb hb hap hbp
  refine ⟨_, z, h, ?_, ?_, a.tdiv b, ?_⟩
  · rw [← Int.cast_abs, ← Int.cast_abs]
    have : |a.tmod b| < |b| := by
      rw [Int.abs_eq_natAbs, Int.abs_eq_natAbs, Int.natAbs_tmod]
      exact_mod_cast Nat.mod_lt _ (by omega)
    exact_mod_cast this
  · have : 0 ≤ a.tmod b * a := by
      rcases le_total 0 a with h | h
      · exact mul_nonneg (Int.tmod_nonneg b h) h
      · have h2 : 0 ≤ (-a).tmod b := Int.tmod_nonneg b (by omega)
        rw [Int.neg_tmod] at h2
        nlinarith
    exact_mod_cast this
  · have := Int.mul_tdiv_add_tmod a b
    have h2 : a = a.tdiv b * b + a.tmod b := by rw [mul_comm]; exact this.symm
    exact_mod_cast h2

/-- a concrete instance: fmod(-17, 5) = -2 in double -/
example : ∃ z, fmod (fin ((-17 : ℤ) : ℚ) false : FV binary64) (fin ((5 : ℤ) : ℚ) false)
    = .ok (fin (Int.tmod (-17) 5 : ℤ) z) :=
  C22_fmod_integers rfl (-17) 5 false false (by decide) (by decide) (by decide)
example : Int.tmod (-17) 5 = -2 := by decide

/-! ## C23 -/

/-- C23: NaN whenever an argument is NaN or infinite, or the divisor is a zero. -/
theorem C23_fmod_special (x y : FV f)
    (h : x = nan ∨ y = nan ∨ (∃ s, x = inf s) ∨ (∃ s, y = inf s) ∨ (∃ z, y = fin 0 z)) :
    fmod x y = .ok nan := by
  unfold fmod fmod_check limNaN
  rcases h with h | h | ⟨s, h⟩ | ⟨s, h⟩ | ⟨z, h⟩
  · subst h; simp [any_nan]
  · subst h; simp [any_nan]
  · subst h; simp [any_nan, all_finite]
  · subst h; simp [any_nan, all_finite]
  · subst h
    cases x with
    | nan => simp [any_nan]
    | inf s => simp [any_nan, all_finite]
    | fin q w =>
      simp only [any_nan, all_finite, is_nan_fin, is_finite_fin, Bool.or_self, Bool.false_eq_true,
        Bool.and_self, Bool.not_true, if_false]
      rw [fin_div_fin, if_pos rfl]
      by_cases hq : q = 0
      · rw [if_pos hq]; rfl
      · rw [if_neg hq]
        unfold trunc trunc_check
        simp only [is_nan_inf, is_finite_inf, Bool.false_eq_true, if_false, Bool.not_false, if_true]
        simp only [bind, Except.bind]
        have : ∀ t : Bool, (inf t : FV f) * fin 0 z = nan := by
          intro t; change mul _ _ = _; simp [mul]
        rw [this]; simp

/-- std::fmod(1, inf) is 1; here it is NaN -/
example : fmod (fin 1 false : FV binary64) (inf false) = .ok nan :=
  C23_fmod_special _ _ (by right; right; right; left; exact ⟨_, rfl⟩)

/-! ## C24 -/

/-- Two representable values with `|x| < |y|` have a ratio at most `1 - 2^-p`. -/
theorem ratio_le {x y : ℚ} (hf : f.exact = false) (hx : Rep f x) (hy : Rep f y) (h : |x| < |y|) :
    |x / y| ≤ 1 - uro f := by
  have hu : uro f * 2 ^ f.prec = 1 := by
    unfold uro; rw [← pow2_nat, ← pow2_add]; simp [pow2_zero]
  have hu0 := uro_pos f
  by_cases hx0 : x = 0
  · subst hx0
    have : (1:ℚ) ≤ 2 ^ f.prec := one_le_pow₀ (by norm_num)
    simp; nlinarith
  have hy0 : y ≠ 0 := by rintro rfl; simp at h; exact absurd h (not_lt.2 (abs_nonneg x))
  obtain ⟨m, hm, hmp⟩ := rep_scaled hf hx0 hx
  obtain ⟨M, hM, -⟩ := rep_scaled hf hy0 hy
  obtain ⟨k, hk, hk2⟩ := pow2_mult (fexp_mono (f := f) hx0 h.le)
  set P := pow2 (fexp f x) with hP
  have hPp : 0 < P := pow2_pos _
  have hyP : y = ((M * k : ℤ) : ℚ) * P := by rw [hM, hk2]; push_cast; ring
  rw [abs_div, div_le_iff₀ (abs_pos.2 hy0)]
  rw [hm, hyP, abs_mul, abs_mul, abs_of_pos hPp] at h ⊢
  have h1 : |((m:ℤ):ℚ)| < |((M * k : ℤ) : ℚ)| := lt_of_mul_lt_mul_right h hPp.le
  rw [← Int.cast_abs, ← Int.cast_abs] at h1 ⊢
  have h2 : |m| < |M * k| := by exact_mod_cast h1
  have h3 : (|m| : ℤ) + 1 ≤ |M * k| := by omega
  have h3' : ((|m| : ℤ) : ℚ) + 1 ≤ ((|M * k| : ℤ) : ℚ) := by exact_mod_cast h3
  have h4 : ((|m| : ℤ) : ℚ) + 1 ≤ 2 ^ f.prec := by exact_mod_cast hmp
  have h5 : 0 ≤ ((|m| : ℤ) : ℚ) := by exact_mod_cast abs_nonneg m
  have hu1 : uro f ≤ 1 := by
    have : (1:ℚ) ≤ 2 ^ f.prec := one_le_pow₀ (by norm_num)
    nlinarith
  rw [← mul_assoc]
  apply mul_le_mul_of_nonneg_right _ hPp.le
  have h6 : uro f * (((|m| : ℤ) : ℚ) + 1) ≤ 1 := by nlinarith
  nlinarith

theorem rep_one_sub_uro (f : Fmt) : Rep f (1 - uro f) := by
  have h : (1 - uro f) = ((2 ^ f.prec - 1 : ℤ) : ℚ) * pow2 (-(f.prec : ℤ)) := by
    unfold uro
    push_cast
    rw [sub_mul, ← pow2_nat, ← pow2_add]; simp [pow2_zero]
  rw [h]
  apply rep_of_scaled
  · have : (1:ℤ) ≤ 2 ^ f.prec := one_le_pow₀ (by norm_num)
    rw [abs_of_nonneg (by omega)]; omega
  · rcases f with ⟨⟨⟩, ⟨⟩⟩ <;> decide

/-- C24, positive part: if `|x| < |y|` and the rounded quotient is not a (nonzero) subnormal then
`fmod(x,y) = x`. -/
theorem C24_fmod_small (hf : f.exact = false) (a b : ℚ) (za zb : Bool)
    (hx : Valid (fin a za : FV f)) (hy : Valid (fin b zb : FV f)) (h : |a| < |b|)
    (hn : rnd f (a / b) = 0 ∨ minNormal f ≤ |rnd f (a / b)|) :
    ∃ r, fmod (fin a za : FV f) (fin b zb) = .ok r ∧ r ≃ fin a za := by
  have hb : b ≠ 0 := by rintro rfl; simp at h; exact absurd h (not_lt.2 (abs_nonneg a))
  unfold fmod fmod_check
  simp only [any_nan, all_finite, is_nan_fin, is_finite_fin, Bool.or_self, Bool.false_eq_true,
    Bool.and_self, Bool.not_true, if_false]
  rw [fin_div hb]
  have hr := ratio_le hf hx.rep hy.rep h
  have hr1 : |rnd f (a / b)| ≤ 1 - uro f := abs_rnd_le_of_rep (rep_one_sub_uro f) hr
  have hu := uro_pos f
  have ho : overflows f (rnd f (a / b)) = false := overflows_small (by linarith)
  have hv := valid_mk (f := f) (a / b) (sign (fin a za : FV f) ^^ sign (fin b zb : FV f))
  rw [mk_fin ho] at hv ⊢
  unfold trunc
  rw [trunc_check_eq hf hv hn, ratTrunc_zero_of_lt (by linarith)]
  simp only [bind, Except.bind]
  refine ⟨_, rfl, ?_⟩
  rw [Int.cast_zero, fin_mul, zero_mul, mk_zero, fin_sub, sub_zero, mk_of_rep hx.rep hx.novf]
  simp [Same]

example : ∃ r, fmod (fin (-3/4) false : FV binary64) (fin 5 false) = .ok r ∧ r ≃ fin (-3/4) false :=
  C24_fmod_small rfl (-3/4) 5 false false (by decide +kernel) (by decide +kernel) (by norm_num [abs_of_neg])
    (by decide +kernel)

/-- C24, failure for large quotients: `fmod(1e20, 0.3)` is `-16384`: neither below 0.3
in magnitude nor of the sign of the dividend. -/
theorem C24_not_a_remainder : ∃ x y : FV binary64, Valid x ∧ Valid y ∧ x.isFin ∧ y.isFin ∧
    i 0 < x ∧ ∃ r, fmod x y = .ok r ∧ fabs y < fabs r ∧ r < i 0 := by
  refine ⟨d 1e20, d 0.3, valid_d _, valid_d _, by decide +kernel, by decide +kernel,
    by decide +kernel, d (-16384), ?_⟩
  refine ⟨?_, ?_, ?_⟩ <;> decide +kernel

/-- C24, failure for quotients that round to a subnormal: `|x| < |y|`, yet `fmod(x,y)` is not `x`.
(Here `x = 1e-300`, `y = 1e10`.) -/
theorem C24_subnormal_quotient : ∃ x y : FV binary64, Valid x ∧ Valid y ∧ fabs x < fabs y ∧
    ∃ r, fmod x y = .ok r ∧ ¬ (r == x) := by
  refine ⟨d 1e-300, d 1e10, valid_d _, valid_d _, by decide +kernel, ?_⟩
  have : ∀ r : Res (FV binary64), (match r with | .ok r => !(r == d 1e-300) | .error _ => false) = true →
      ∃ v, r = .ok v ∧ ¬ (v == d 1e-300) := by
    intro r h
    cases r with
    | error e => simp at h
    | ok v => exact ⟨v, rfl, by simpa using h⟩
  exact this _ (by decide +kernel)

/-! ## C31 -/

/-- C31: for every finite `x` with `|x| ≥ 1` the split is exact: `x = W + r` with no rounding;
for `x > 0` the fraction is in `[-1/2, 1/2)`, for `x < 0` it is in `[0,1/2) ∪ [3/2,2)`;
`find_whole` returns `W`, or is undefined exactly when `W` is not a `long long`. -/
theorem C31_split (hf : f.exact = false) (q : ℚ) (z : Bool) (hx : Valid (fin q z : FV f))
    (h1 : 1 ≤ |q|) :
    ∃ (W : ℤ) (r : ℚ) (w : Bool), find_fraction (fin q z : FV f) = .ok (fin r w) ∧ q = W + r ∧
      (0 < q → -1/2 ≤ r ∧ r < 1/2) ∧ (q < 0 → (0 ≤ r ∧ r < 1/2) ∨ (3/2 ≤ r ∧ r < 2)) ∧
      (-2 ^ 63 ≤ W ∧ W ≤ 2 ^ 63 - 1 → find_whole (fin q z : FV f) = .ok W) ∧
      (¬ (-2 ^ 63 ≤ W ∧ W ≤ 2 ^ 63 - 1) → find_whole (fin q z : FV f) = .error .castRange) := by
  obtain ⟨⟨w, hfr⟩, hwh⟩ := find_split hf hx h1
  have hl := Int.floor_le q
  have hu := Int.lt_floor_add_one q
  refine ⟨wholeOf q, q - wholeOf q, w, hfr, by ring, ?_, ?_, ?_, ?_⟩
  · intro hq
    unfold wholeOf
    by_cases hc : 1/2 ≤ q - ⌊q⌋
    · rw [if_pos hc, if_pos hq]; push_cast; constructor <;> linarith
    · rw [if_neg hc]; push Not at hc; constructor <;> linarith
  · intro hq
    unfold wholeOf
    by_cases hc : 1/2 ≤ q - ⌊q⌋
    · rw [if_pos hc, if_neg (not_lt.2 hq.le), if_pos hq]; push_cast; right; constructor <;> linarith
    · rw [if_neg hc]; push Not at hc; left; constructor <;> linarith
  · intro h; rw [hwh, if_pos h]
  · intro h; rw [hwh, if_neg h]

/-- the hypotheses are met, e.g. by -27/4 in double -/
example : ∃ (W : ℤ) (r : ℚ) (w : Bool),
    find_fraction (fin (-27/4) false : FV binary64) = .ok (fin r w) ∧ (-27/4 : ℚ) = W + r ∧
      (0 < (-27/4 : ℚ) → -1/2 ≤ r ∧ r < 1/2) ∧
      ((-27/4 : ℚ) < 0 → (0 ≤ r ∧ r < 1/2) ∨ (3/2 ≤ r ∧ r < 2)) ∧
      (-2 ^ 63 ≤ W ∧ W ≤ 2 ^ 63 - 1 → find_whole (fin (-27/4) false : FV binary64) = .ok W) ∧
      (¬ (-2 ^ 63 ≤ W ∧ W ≤ 2 ^ 63 - 1) →
        find_whole (fin (-27/4) false : FV binary64) = .error .castRange) :=
  C31_split rfl _ _ (by decide +kernel) (by norm_num [abs_of_neg])

/-- C31: the documented range `|fraction| ≤ 1/2` fails for negative arguments: `-1.5 = -3 + 1.5`. -/
theorem C31_negative_not_nearest :
    find_whole (d (-3/2) : FV binary64) = .ok (-3) ∧
    find_fraction (d (-3/2) : FV binary64) = .ok (d (3/2)) := by
  constructor <;> decide +kernel

/-- C31: undefined behaviour is reached, in `double` at `2^63` and in `long double` already at the
largest value below `2^63`. -/
theorem C31_undefined :
    find_whole (fin (2 ^ 63) false : FV binary64) = .error .castRange ∧
    find_whole (fin (2 ^ 63 - 1/2) false : FV x87) = .error .castRange ∧
    Valid (fin (2 ^ 63 - 1/2) false : FV x87) := by
  refine ⟨?_, ?_, ?_⟩ <;> decide +kernel

end Gcem.Props
