import Verif.Props.Mixed
import Verif.Props.Integer
import Verif.Props.IntegerPow
import Verif.Props.TgammaAcc

/-!
# C86, C87, C88: integer arguments of incomplete_beta_inv and pow, floating arguments of the integer functions
-/

namespace Gcem.Props

open FV Gcem.IntTy

/-! ## C86: incomplete_beta_inv with integer arguments only -/

theorem ibi_tval_undefined (t : IntTy) (p : ℤ) (hp : p = 0 ∨ p = 1) : ibi_tval_int t p = .error .castRange := by
  rcases hp with rfl | rfl <;> rcases t with ⟨w, s⟩ <;> cases w <;> cases s <;> decide +kernel

/-- `s1` is undefined or zero -/
theorem ibi_s1_cases (t : IntTy) (a b : ℤ) (ha : t.has a) (hb : t.has b) (a0 : 0 ≤ a) (b0 : 0 ≤ b) (hz : a = 0 ∨ 0 < b) (h2 : a ≤ 1 ∨ b ≤ 1) :
    (∃ e, ibi_s1_int t a b = .error e) ∨ (0 < a ∧ ibi_s1_int t a b = .ok 0) := by
  have hlo := t.lo_nonpos
  have h1 := t.hi_ge
  unfold ibi_s1_int
  rcases hs : t.arith (a + b) with e | s
  · exact .inl ⟨e, rfl⟩
  simp only [bind, Except.bind]
  by_cases h : t.has (a + b)
  · rw [arith_of_has h] at hs
    obtain rfl : a + b = s := by injection hs
    by_cases h0 : a + b = 0
    · left; refine ⟨.divByZero, ?_⟩; unfold idiv; rw [if_pos h0]
    · have q0 : t.idiv a (a + b) = .ok 0 := by
        unfold idiv
        rw [if_neg h0, Int.tdiv_eq_zero_of_lt a0 ?_, arith_of_has t.has_zero]
        rcases hz with hz | hz <;> omega
      rw [q0]
      rcases eq_or_lt_of_le a0 with h2 | h2
      · left
        rw [← h2]
        refine ⟨.divByZero, ?_⟩
        have : powI t t 0 0 = .ok 1 := by
          rcases t with ⟨w, s⟩; cases w <;> cases s <;> decide +kernel
        simp only [this]
        unfold idiv; simp
      · right
        refine ⟨h2, ?_⟩
        have : powI t t 0 a = .ok 0 := by
          by_cases hh : a = t.hi
          · rw [hh]; exact C09_pow_exp_max t t 0
          · have e0 : (0:ℤ) ^ a.toNat = 0 := zero_pow (by omega)
            cases hsg : t.signed
            · rw [C08_pow_int_unsigned t t hsg 0 a t.has_zero a0 hh, e0, common_self]
              simp [conv_of_has t.has_zero]
            · rw [C08_pow_int_same_type t hsg 0 a t.has_zero a0 hh, e0, if_pos t.has_zero]
        simp only [this]
        unfold idiv
        rw [if_neg (by omega), Int.zero_tdiv, arith_of_has t.has_zero]
  · cases hsg : t.signed
    · rw [arith_unsigned hsg] at hs
      have h3 := lo_unsigned hsg
      have h4 := t.hi_eq
      unfold has at ha hb h
      have h5 : a + b = t.mod := by omega
      rw [h5, conv_unsigned hsg, Int.emod_self] at hs
      obtain rfl : 0 = s := by injection hs
      left; refine ⟨.divByZero, ?_⟩; unfold idiv; simp
    · rw [arith_signed_not hsg h] at hs; simp at hs

theorem ibi_val2_undefined (t : IntTy) (a b p : ℤ) : ibi_val2_int t a b p 0 0 = .error .divByZero := by
  unfold ibi_val2_int
  rw [add_zero, arith_of_has t.has_zero]
  simp only [bind, Except.bind]
  unfold idiv
  simp

/-- both start values: undefined, or both zero -/
theorem ibi_s12_undefined (t : IntTy) (a b : ℤ) (ha : t.has a) (hb : t.has b) (a0 : 0 ≤ a) (b0 : 0 ≤ b) (h2 : a ≤ 1 ∨ b ≤ 1)
    (k : ℤ → ℤ → Res ℤ) (hk : ∃ e, k 0 0 = .error e) :
    ∃ e, (ibi_s1_int t a b).bind (fun s1 => (ibi_s1_int t b a).bind (fun s2 => k s1 s2)) = .error e := by
  by_cases hz : a = 0 ∨ 0 < b
  · rcases ibi_s1_cases t a b ha hb a0 b0 hz h2 with ⟨e, h⟩ | ⟨h0, h⟩
    · exact ⟨e, by rw [h]; rfl⟩
    · rw [h]
      rcases ibi_s1_cases t b a hb ha b0 a0 (.inr h0) h2.symm with ⟨e, h'⟩ | ⟨-, h'⟩
      · exact ⟨e, by rw [h']; rfl⟩
      · rw [h']; exact hk
  · rcases h : ibi_s1_int t a b with e | s1
    · exact ⟨e, rfl⟩
    · rcases ibi_s1_cases t b a hb ha b0 a0 (.inl (by omega)) h2.symm with ⟨e, h'⟩ | ⟨h', -⟩
      · exact ⟨e, by rw [h']; rfl⟩
      · omega

/-- C86: `incomplete_beta_inv` called with three integer arguments of one type has undefined behaviour for all
`a, b ≥ 0` and both legal probabilities `0` and `1`, whatever the remaining part of the computation does. -/
theorem C86_undefined (t : IntTy) (init rest : ℤ → Res ℤ) (a b p : ℤ) (ha : t.has a) (hb : t.has b) (a0 : 0 ≤ a) (b0 : 0 ≤ b)
    (hp : p = 0 ∨ p = 1) : ∃ e, ibi_int t init rest a b p = .error e := by
  have hlo := t.lo_nonpos
  have hh := t.hi_ge
  have d1 : t.has (1 - p) := by unfold has; omega
  have d2 : ¬ (t.signed = true ∧ 1 - p = t.lo) := by
    rintro ⟨hs, h⟩
    have := lo_signed hs
    omega
  have d3 : |1 - p| = 1 - p := abs_of_nonneg (by omega)
  unfold ibi_int
  rw [if_neg (by omega), arith_of_has d1]
  change ∃ e, Except.bind (absI t (1 - p)) _ = Except.error e
  rw [absI_ok d1 d2, d3]
  simp only [Except.bind]
  rw [if_neg (by omega)]
  by_cases h : a > 1 ∧ b > 1
  · rw [if_pos h, ibi_tval_undefined t p hp]
    exact ⟨_, rfl⟩
  · rw [if_neg h]
    rcases hp with rfl | rfl
    · rw [if_neg (by omega)]
      exact ibi_s12_undefined t a b ha hb a0 b0 (by omega) (fun s1 s2 => (ibi_val2_int t a b 0 s1 s2).bind rest)
        ⟨.divByZero, by simp only [ibi_val2_undefined]; rfl⟩
    · rw [if_pos (by omega)]
      exact ibi_s12_undefined t b a hb ha b0 a0 (by omega)
        (fun s1 s2 => (Except.ok (1 - 1)).bind fun q => (ibi_val2_int t b a q s1 s2).bind fun v => (t.arith (1 - v)).bind rest)
        ⟨.divByZero, by simp only [ibi_val2_undefined, Except.bind]⟩

/-- C86: which undefined behaviour: for `a, b > 1` the infinite or NaN `double` start value is converted to the integer
type. -/
theorem C86_cast (t : IntTy) (init rest : ℤ → Res ℤ) (a b p : ℤ) (a1 : 1 < a) (b1 : 1 < b) (hp : p = 0 ∨ p = 1) :
    ibi_int t init rest a b p = .error .castRange := by
  have hlo := t.lo_nonpos
  have hh := t.hi_ge
  have d1 : t.has (1 - p) := by unfold has; omega
  have d2 : ¬ (t.signed = true ∧ 1 - p = t.lo) := by
    rintro ⟨hs, h⟩
    have := lo_signed hs
    omega
  have d3 : |1 - p| = 1 - p := abs_of_nonneg (by omega)
  unfold ibi_int
  rw [if_neg (by omega), arith_of_has d1]
  simp only [bind, Except.bind]
  rw [absI_ok d1 d2, d3]
  simp only []
  rw [if_neg (by omega), if_pos ⟨a1, b1⟩, ibi_tval_undefined t p hp]

example : ibi_int .int .ok .ok 1 1 0 = .error .divByZero ∧ ibi_int .int .ok .ok 2 3 1 = .error .castRange ∧
    ibi_int .uint .ok .ok 1 4294967295 0 = .error .divByZero ∧
    ibi_int .int .ok .ok 1 2147483647 0 = .error .intOverflow := by decide +kernel

theorem fin_lt_zero {f : Fmt} {q : ℚ} {z : Bool} : (fin q z : FV f) < i 0 ↔ q < 0 := by
  have := (is_fin (f := f) q z).lt_iff (is_i (f := f) (n := 0) (by simp))
  simpa using this

/-! ## C87: pow with an integer base and a floating exponent -/

/-- C87: a negative base of any type with any floating exponent (also `2.0`, also `NaN`, also `0.0`) gives NaN. -/
theorem C87_negative_base (t : IntTy) (n : ℤ) (te : FTy) (e : FV te.fmt) (h : n < 0) :
    powA_real (.int t n) te e = .ok nan := by
  show (if n < 0 then _ else _) = _
  rw [if_pos h]; rfl

example : powA_real (.int .int (-3)) .double (fin 2 false) = .ok nan ∧ powI .int .int (-3) 2 = .ok 9 := by
  constructor
  · exact C87_negative_base _ _ _ _ (by decide)
  · decide +kernel

/-- C87: a nonnegative integer base up to `2^p` behaves as the same base in the type of the exponent. -/
theorem C87_int_base (t : IntTy) (n : ℤ) (te : FTy) (e : FV te.fmt) (he : Valid e) (h0 : 0 ≤ n) (h1 : n ≤ 2 ^ te.prec) :
    powA_real (.int t n) te e = pow (fin n false : FV te.fmt) e := by
  show (if n < 0 then (.ok limNaN : Res (FV te.fmt)) else pow_dbl (i n : FV te.fmt) (FV.cast te.fmt e)) = _
  have hn : |n| ≤ 2 ^ te.fmt.prec := by rw [abs_of_nonneg h0]; exact h1
  rw [if_neg (by omega), cast_self' he, i_eq hn]
  unfold pow pow_check
  rw [if_neg]
  rw [fin_lt_zero]
  have : (0:ℚ) ≤ n := by exact_mod_cast h0
  linarith

/-- C87: a floating base and exponent of different types behave as both in the wider type. -/
theorem C87_mixed (tb te : FTy) (a : ℚ) (z : Bool) (e : FV te.fmt) (hb : Valid (fin a z : FV tb.fmt)) (he : Valid e) :
    powA_real (.flt tb (fin a z)) te e = pow (fin a z : FV (tb.wider te).fmt) (FV.cast _ e) := by
  obtain ⟨⟨p1, p2, p3⟩, -, -⟩ := wider_spec tb te
  show (if (fin a z : FV tb.fmt) < i 0 then (.ok limNaN : Res (FV (tb.wider te).fmt)) else pow_dbl (FV.cast (tb.wider te).fmt (fin a z : FV tb.fmt)) (FV.cast (tb.wider te).fmt e)) = _
  rw [cast_widen rfl rfl p1 p2 p3 hb]
  unfold pow pow_check
  by_cases h : a < 0
  · rw [if_pos (fin_lt_zero.2 h), if_pos (fin_lt_zero.2 h)]
  · rw [if_neg (mt fin_lt_zero.1 h), if_neg (mt fin_lt_zero.1 h)]

/-- C87: integer base and wider integer exponent: the power is computed in the type of the base, so the call is undefined
although its return type holds the result. -/
theorem C87_narrow_base (b e : ℤ) (hb : IntTy.int.has b) (h0 : 0 ≤ e) (h1 : e ≠ IntTy.llint.hi) (h2 : ¬ IntTy.int.has (b ^ e.toNat)) :
    powI .int .llint b e = .error .intOverflow := by
  rw [C08_pow_int_signed .int .llint rfl b e hb h0 h1, if_neg h2]

example : ¬ IntTy.int.has (10 ^ 10) ∧ (common .int .llint).has (10 ^ 10) ∧ powI .int .llint 10 10 = .error .intOverflow := by
  refine ⟨by decide, by decide, by decide +kernel⟩

/-! ## C88: the integer functions with floating arguments -/

theorem toU64_ok {f : Fmt} {q : ℚ} {z : Bool} (h0 : -1 < q) (h1 : q < 2 ^ 64) : toU64 (fin q z : FV f) = .ok ⌊max q 0⌋ := by
  have e : ratTrunc q = ⌊max q 0⌋ := by
    rcases le_total 0 q with h | h
    · rw [ratTrunc_of_nonneg h, max_eq_left h]
    · rw [ratTrunc_of_nonpos h, max_eq_right h]
      simp only [Int.floor_zero, Int.ceil_eq_iff]
      push_cast
      constructor <;> linarith
  unfold toU64
  rw [toInt_ok, e]
  rw [e]
  constructor
  · exact Int.floor_nonneg.2 (le_max_right _ _)
  · have : ⌊max q 0⌋ < 2 ^ 64 := by
      rw [Int.floor_lt]; push_cast
      exact max_lt h1 (by norm_num)
    omega

theorem toU64_range {f : Fmt} {x : FV f} (h : ∀ q z, x = fin q z → q ≤ -1 ∨ 2 ^ 64 ≤ q) : toU64 x = .error .castRange := by
  cases x with
  | nan => rfl
  | inf b => rfl
  | fin q z =>
    show (if _ then _ else _) = _
    rw [if_neg]
    rcases h q z rfl with h | h
    · have : ratTrunc q ≤ -1 := by
        rw [ratTrunc_of_nonpos (by linarith)]; exact Int.ceil_le.2 (by push_cast; exact h)
      omega
    · have : 2 ^ 64 ≤ ratTrunc q := by
        rw [ratTrunc_of_nonneg (by linarith [show (0:ℚ) ≤ 2 ^ 64 by norm_num])]; exact Int.le_floor.2 (by push_cast; exact h)
      omega

/-- C88: `gcd` of floating arguments below `2^64` is the gcd of the integer parts of `|a|` and `|b|`: the fractions are
dropped without notice. -/
theorem C88_gcd {f : Fmt} (a b : ℚ) (za zb : Bool) (ha : |a| < 2 ^ 64) (hb : |b| < 2 ^ 64) :
    gcdF (fin a za : FV f) (fin b zb) = .ok (i (Int.gcd ⌊|a|⌋ ⌊|b|⌋)) := by
  have e : ∀ q : ℚ, ∀ z, |q| < 2 ^ 64 → toU64 (fabs (fin q z : FV f)) = .ok ⌊|q|⌋ := by
    intro q z h
    obtain ⟨w, hw⟩ := (is_fin (f := f) q z).fabs
    rw [hw, toU64_ok (by linarith [abs_nonneg q]) h, max_eq_left (abs_nonneg q)]
  unfold gcdF
  rw [e a za ha, e b zb hb]
  simp only [bind, Except.bind]
  rw [gcd_recur_spec _ _ _ (Int.floor_nonneg.2 (abs_nonneg _)) (Int.floor_nonneg.2 (abs_nonneg _))]

example : gcdF (fin (9 / 2) false : FV binary64) (fin (-13 / 2) false) = .ok (fin 2 false) := by decide +kernel

/-- C88: and undefined as soon as one argument is NaN, infinite, or at least `2^64` in magnitude. -/
theorem C88_gcd_undefined {f : Fmt} (x y : FV f) (h : (∀ q z, x = fin q z → 2 ^ 64 ≤ |q|) ∨ (∀ q z, y = fin q z → 2 ^ 64 ≤ |q|)) :
    gcdF x y = .error .castRange ∧ lcmF x y = .error .castRange := by
  have e : ∀ x : FV f, (∀ q z, x = fin q z → 2 ^ 64 ≤ |q|) → toU64 (fabs x) = .error .castRange := by
    intro x h
    refine toU64_range fun q z hq => .inr ?_
    cases x with
    | nan => exact absurd hq (by unfold fabs; split <;> simp_all)
    | inf b => rw [fabs_inf] at hq; cases hq
    | fin r w =>
      obtain ⟨w', hw⟩ := (is_fin (f := f) r w).fabs
      rw [hw] at hq
      injection hq with h1 h2
      rw [← h1]; exact h r w rfl
  have key : gcdF x y = .error .castRange := by
    unfold gcdF
    rcases h with h | h
    · rw [e x h]; rfl
    · rcases hx : toU64 (fabs x) with u | n
      · have : u = .castRange := by
          revert hx
          unfold toU64
          cases fabs x with
          | nan => rintro ⟨⟩; rfl
          | inf b => rintro ⟨⟩; rfl
          | fin q z =>
            show (if _ then _ else _) = _ → _
            split
            · intro h; simp at h
            · rintro ⟨⟩; rfl
        subst this; rfl
      · rw [e y h]; rfl
  exact ⟨key, by unfold lcmF; rw [key]; rfl⟩

theorem toU64_int {f : Fmt} {n : ℤ} {z : Bool} (h0 : 0 ≤ n) (h1 : n < 2 ^ 64) : toU64 (fin n z : FV f) = .ok n := by
  have h0' : (0:ℚ) ≤ n := by exact_mod_cast h0
  rw [toU64_ok (by linarith) (by exact_mod_cast h1), max_eq_left h0', Int.floor_intCast]

/-- C88: integers of the floating type: the exact gcd. -/
theorem C88_gcd_int {f : Fmt} (n m : ℤ) (zn zm : Bool) (hn : |n| < 2 ^ f.prec) (hm : |m| < 2 ^ f.prec) :
    gcdF (fin n zn : FV f) (fin m zm) = .ok (fin (Int.gcd n m) false) := by
  have hp : (2:ℤ) ^ f.prec ≤ 2 ^ 64 := by rcases f with ⟨⟨⟩, ⟨⟩⟩ <;> decide
  have e : ∀ k : ℤ, ⌊|(k:ℚ)|⌋ = |k| := fun k => by rw [← Int.cast_abs, Int.floor_intCast]
  have q : ∀ k : ℤ, |k| < 2 ^ f.prec → |(k:ℚ)| < 2 ^ 64 := fun k hk => by
    rw [← Int.cast_abs]
    exact_mod_cast hk.trans_le hp
  rw [C88_gcd _ _ _ _ (q n hn) (q m hm), e, e]
  have hg : ((Int.gcd |n| |m| : ℕ) : ℤ) = Int.gcd n m := by simp [Int.gcd_def, Int.natAbs_abs]
  rw [hg, i_eq]
  · simp
  rw [abs_of_nonneg (by positivity)]
  by_cases h0 : n = 0
  · subst h0
    rw [Int.gcd_zero_left, Int.natCast_natAbs]; exact hm.le
  · have := Int.gcd_le_natAbs_left m h0
    have h2 : (n.natAbs : ℤ) = |n| := Int.natCast_natAbs n
    omega

/-- C88: `lcm` of integers of the floating type, not both zero, is exact as long as the result is at most `2^p`. -/
theorem C88_lcm_int {f : Fmt} (n m : ℤ) (zn zm : Bool) (hn : |n| < 2 ^ f.prec) (hm : |m| < 2 ^ f.prec)
    (h0 : ¬ (n = 0 ∧ m = 0)) (hl : (Int.lcm n m : ℤ) ≤ 2 ^ f.prec) :
    lcmF (fin n zn : FV f) (fin m zm) = .ok (fin (Int.lcm n m) false) := by
  have hg0 : Int.gcd n m ≠ 0 := by rw [Ne, Int.gcd_eq_zero_iff]; exact h0
  have hg0' : ((Int.gcd n m : ℕ) : ℚ) ≠ 0 := by exact_mod_cast hg0
  obtain ⟨c, hc⟩ := Int.gcd_dvd_right n m
  have hcq : (m:ℚ) / (Int.gcd n m : ℕ) = (c:ℤ) := by
    rw [div_eq_iff hg0']
    have : (m:ℚ) = (((Int.gcd n m : ℕ) : ℤ) * c : ℤ) := by rw [← hc]
    rw [this]; push_cast; ring
  have hcm : |c| ≤ |m| := by
    rw [hc, abs_mul]
    have : (1:ℤ) ≤ |((Int.gcd n m : ℕ) : ℤ)| := by
      rw [abs_of_nonneg (by positivity)]; omega
    nlinarith [abs_nonneg c]
  have hll : |n * c| = Int.lcm n m := by
    have h1 : ((Int.gcd n m * Int.lcm n m : ℕ) : ℤ) = |n * m| := by
      rw [Int.gcd_mul_lcm, ← Int.natAbs_mul, Int.natCast_natAbs]
    have h2 : |n * m| = Int.gcd n m * |n * c| := by
      conv_lhs => rw [hc]
      rw [show n * (((Int.gcd n m : ℕ) : ℤ) * c) = (Int.gcd n m : ℕ) * (n * c) by ring, abs_mul, abs_of_nonneg (by positivity : (0:ℤ) ≤ (Int.gcd n m : ℕ))]
    rw [h2] at h1
    push_cast at h1
    exact (mul_left_cancel₀ (by exact_mod_cast hg0) h1).symm
  have r1 : rnd f (m / (Int.gcd n m : ℕ)) = (c:ℤ) := by rw [hcq]; exact rep_int (hcm.trans hm.le)
  have o1 : overflows f (rnd f (m / (Int.gcd n m : ℕ))) = false := by rw [r1]; exact overflows_int (hcm.trans hm.le)
  have i1 := (is_fin (f := f) (m:ℚ) zm).div (is_fin ((Int.gcd n m : ℕ):ℚ) false) hg0' o1
  rw [r1] at i1
  have r2 : rnd f ((n:ℚ) * (c:ℤ)) = ((n * c : ℤ) : ℚ) := by
    have := rep_int (f := f) (n := n * c) (by rw [hll]; exact hl)
    push_cast at this ⊢; exact this
  have o2 : overflows f (rnd f ((n:ℚ) * (c:ℤ))) = false := by rw [r2]; exact overflows_int (by rw [hll]; exact hl)
  obtain ⟨w, hw⟩ := (is_fin (f := f) (n:ℚ) zn).mul i1 o2
  rw [r2] at hw
  unfold lcmF
  rw [C88_gcd_int n m zn zm hn hm]
  simp only [bind, Except.bind]
  have hv := valid_mul (fin n zn : FV f) (fin m zm / fin ((Int.gcd n m : ℕ):ℚ) false)
  rw [hw] at hv ⊢
  rw [fabs_fin hv, ← Int.cast_abs, hll]
  simp

example : lcmF (fin (-4) false : FV binary64) (fin 6 false) = .ok (fin 12 false) := by decide +kernel

/-- C88: `lcm(0.0, 0.0)` is NaN (with integers it is a division by zero, C02). -/
theorem C88_lcm_zero (f : Fmt) (z z' : Bool) : lcmF (fin 0 z : FV f) (fin 0 z') = .ok nan := by
  rcases f with ⟨⟨⟩, ⟨⟩⟩ <;> cases z <;> cases z' <;> decide +kernel

/-- C88: `binomial_coef` of floating arguments above `-1` and below `2^64`: integer parts, and the value modulo `2^64`,
rounded to the type. -/
theorem C88_binomial {f : Fmt} (n k : ℚ) (zn zk : Bool) (n0 : -1 < n) (n1 : n < 2 ^ 64) (k0 : -1 < k) (k1 : k < 2 ^ 64) :
    binomial_coefF (fin n zn : FV f) (fin k zk) = .ok (i (((⌊max n 0⌋.toNat.choose ⌊max k 0⌋.toNat : ℕ) : ℤ) % 2 ^ 64)) := by
  have e : ∀ q : ℚ, q < 2 ^ 64 → 0 ≤ ⌊max q 0⌋ ∧ IntTy.ullint.has ⌊max q 0⌋ := fun q hq => by
    have h1 : 0 ≤ ⌊max q 0⌋ := Int.floor_nonneg.2 (le_max_right _ _)
    have : ⌊max q 0⌋ < 2 ^ 64 := by
      rw [Int.floor_lt]; push_cast
      exact max_lt hq (by norm_num)
    refine ⟨h1, ?_⟩
    show (0:ℤ) ≤ _ ∧ _ ≤ (2:ℤ) ^ 64 - 1
    omega
  unfold binomial_coefF
  rw [toU64_ok n0 n1, toU64_ok k0 k1]
  simp only [bind, Except.bind]
  have h := C06_binomial_unsigned .ullint .ullint _ _ rfl (e n n1).2 (e k k1).2
  unfold binomial_coef binomial_coef_check at h
  have hc : common ullint ullint = ullint := rfl
  rw [hc, conv_of_has (e n n1).2, conv_of_has (e k k1).2] at h
  rw [h]
  unfold choose
  rw [if_neg (by have := (e k k1).1; omega)]
  rfl

example : binomial_coefF (fin (13 / 2) false : FV binary64) (fin 2 false) = .ok (fin 15 false) := by decide +kernel

/-- C88: and undefined for NaN, infinities, values at most `-1` or at least `2^64`. -/
theorem C88_binomial_undefined {f : Fmt} (x y : FV f) (h : ∀ q z, x = fin q z → q ≤ -1 ∨ 2 ^ 64 ≤ q) :
    binomial_coefF x y = .error .castRange := by
  unfold binomial_coefF
  rw [toU64_range h]; rfl

/-- C88: the factorial of a floating integer `n` up to 33 (float), 170 (double), 1754 (long double) is not the exact integer
but `tgamma(n+1)`, with a relative error. -/
theorem C88_factorial {f : Fmt} (hf : f.exact = false) (n : ℕ) (z : Bool) (hn : n + 1 ≤ tgMax f.ty) :
    ∃ r, factorialF (fin n z : FV f) = .ok (fin r false) ∧ 0 < r ∧
      |(r:ℝ) - n.factorial| ≤ ((245 + 27 * (n + 1) * Real.log (n + 7)) / 2 ^ f.prec + 19 / 10 ^ 15) * n.factorial := by
  have hT : tgMax f.ty ≤ 2 ^ 24 := by cases f.ty <;> decide
  have hp := two_pow_prec f
  have hN : |((n + 1 : ℕ) : ℤ)| ≤ 2 ^ f.prec := by
    rw [abs_of_nonneg (by positivity)]; push_cast; omega
  have es : (fin n z : FV f) + i 1 = fin ((n + 1 : ℕ) : ℤ) false := by
    have r : rnd f ((n:ℚ) + 1) = (((n + 1 : ℕ) : ℤ) : ℚ) := by
      have := rep_int (f := f) hN
      push_cast at this ⊢; exact this
    obtain ⟨w, hw⟩ := (is_fin (f := f) (n:ℚ) z).add (is_i (f := f) (n := 1) (by simp)) (by
      rw [Int.cast_one, r]; exact overflows_int hN)
    have hv := valid_add (fin n z : FV f) (i 1)
    rw [Int.cast_one, r] at hw
    rw [hw] at hv ⊢
    cases w
    · rfl
    · exact absurd (hv.2.2 rfl) (by push_cast; positivity)
  have hv : Valid (fin (((n + 1 : ℕ) : ℤ) : ℚ) false : FV f) := es ▸ valid_add _ _
  obtain ⟨r, e, h0, hr⟩ := C73_accuracy hf _ false hv (by push_cast; linarith [show (0:ℚ) ≤ n from by positivity])
    (by push_cast; exact_mod_cast hn)
  refine ⟨r, ?_, h0, ?_⟩
  · unfold factorialF; rw [es]; exact e
  · push_cast at hr
    rw [Real.Gamma_nat_eq_factorial] at hr
    rw [show (n:ℝ) + 7 = n + 1 + 6 by ring]
    exact hr

example : (20 + 1 : ℕ) ≤ tgMax .double := by decide

end Gcem.Props
