import Verif.Fp.RoundFns

/-!
# C13–C21: classification, min/max, and the four rounding functions

`f.exact = false` says that `f` is one of the machine formats (float, double, long double).
A finite value is `fin q z`: the rational `q`, and for zeros the sign flag `z`.
-/

namespace Gcem.Props
open Gcem FV
variable {f : Fmt}

/-! ## C13 -/

/-- IEEE view of a value, independent of the model's operations: (is it negative, magnitude),
with magnitude `none` for infinity. -/
def signMag : FV f → Option (Bool × Option ℚ)
  | .nan => none
  | .inf s => some (s, none)
  | .fin q z => some (if q = 0 then z else decide (q < 0), some |q|)

/-- `abs` clears the sign and keeps the magnitude (both zeros give `+0`). -/
theorem C13_abs_float (x : FV f) (hx : Valid x) :
    signMag (fabs x) = (signMag x).map (fun p => (false, p.2)) := by
  cases x with
  | nan => simp [signMag]
  | inf s => simp [signMag]
  | fin q z =>
    rw [fabs_fin hx]
    by_cases h : q = 0
    · simp [signMag, h]
    · simp [signMag, h]

/-- `sgn` is -1, 0, 1 by comparison with zero. -/
theorem C13_sgn_float (q : ℚ) (z : Bool) :
    (q < 0 → sgn (fin q z : FV f) = -1) ∧ (q = 0 → sgn (fin q z : FV f) = 0) ∧
    (0 < q → sgn (fin q z : FV f) = 1) ∧ sgn (inf z : FV f) = (if z then -1 else 1) ∧
    sgn (nan : FV f) = 0 := by
  refine ⟨fun h => ?_, fun h => ?_, fun h => ?_, by simp, by simp⟩
  · simp [h, not_lt.2 h.le]
  · simp [h]
  · simp [h]

/-- `signbit` is the IEEE sign of every non-NaN value. -/
theorem C13_signbit (x : FV f) (hx : x ≠ nan) : (signMag x).map Prod.fst = some (signbit x) := by
  cases x with
  | nan => exact absurd rfl hx
  | inf s => rfl
  | fin q z => rfl

/-- `copysign(x,y)`: magnitude of `x`, sign of `y`; `y` may have another floating type. -/
theorem C13_copysign {g : Fmt} (x : FV f) (y : FV g) (hx : x ≠ nan) (hy : y ≠ nan) :
    signMag (copysign x y) = some ((signMag y).get (by cases y <;> simp_all [signMag]) |>.1,
      (signMag x).get (by cases x <;> simp_all [signMag]) |>.2) := by
  have hs : ∀ (g : Fmt) (w : FV g) (hw : w ≠ nan) (h : (signMag w).isSome), ((signMag w).get h).1 = signbit w := by
    intro g w hw h
    cases w with
    | nan => exact absurd rfl hw
    | inf s => rfl
    | fin q z => rfl
  rw [hs g y hy]
  unfold copysign
  by_cases hd : signbit x = signbit y
  · rw [if_neg (by simp [hd]), ← hd, ← hs f x hx (by cases x <;> simp_all [signMag])]
    simp
  · rw [if_pos (by simp [hd])]
    have : signbit y = !signbit x := by
      cases h1 : signbit x <;> cases h2 : signbit y <;> simp_all
    rw [this]
    cases x with
    | nan => exact absurd rfl hx
    | inf s => rfl
    | fin q z =>
      rw [neg_fin]
      simp only [signMag, signbit, sign, Option.get_some]
      rcases lt_trichotomy q 0 with h | h | h
      · simp [h, h.ne, h.le]
      · simp [h]
      · simp [h, h.ne', h.le]

/-- `neg_zero` holds exactly for `-0`. -/
theorem C13_neg_zero (x : FV f) (hx : Valid x) : neg_zero x = true ↔ x = fin 0 true := by
  unfold neg_zero
  cases x with
  | nan => simp
  | inf s => simp
  | fin q z =>
    by_cases h : q = 0
    · subst h
      cases z <;> simp [copysign, signbit, sign, neg_fin] <;> norm_num
    · simp [h]

example : signMag (copysign (fin 3 false : FV binary64) (fin 0 true : FV binary32)) = some (true, some 3) := by
  decide +kernel
example : Valid (fin (-5/2) false : FV binary32) ∧
    signMag (fabs (fin (-5/2) false : FV binary32)) = some (false, some (5/2)) := by decide +kernel

/-! ## C14 -/

/-- For non-NaN arguments `max`/`min` return one argument each, both together use up `x` and `y`,
and they bound both. -/
theorem C14_max_min_float (x y : FV f) (hx : x ≠ nan) (hy : y ≠ nan) :
    ((fmax x y = x ∨ fmax x y = y) ∧ x ≤ fmax x y ∧ y ≤ fmax x y) ∧
    ((fmin x y = x ∨ fmin x y = y) ∧ fmin x y ≤ x ∧ fmin x y ≤ y) := by
  unfold fmax fmin
  cases x with
  | nan => exact absurd rfl hx
  | inf s =>
    cases y with
    | nan => exact absurd rfl hy
    | inf t => cases s <;> cases t <;> simp
    | fin b w => cases s <;> simp
  | fin a z =>
    cases y with
    | nan => exact absurd rfl hy
    | inf t => cases t <;> simp
    | fin b w =>
      simp only [fin_lt, gt_iff]
      constructor
      · split
        · simp; linarith
        · simp; linarith
      · split
        · simp; linarith
        · simp; linarith

/-- `max` and `min` pick opposite arguments unless the arguments compare equal. -/
theorem C14_max_min_complementary (x y : FV f) (hx : x ≠ nan) (hy : y ≠ nan) (hne : (x == y) = false) :
    (fmax x y = x ∧ fmin x y = y) ∨ (fmax x y = y ∧ fmin x y = x) := by
  unfold fmax fmin
  cases x with
  | nan => exact absurd rfl hx
  | inf s =>
    cases y with
    | nan => exact absurd rfl hy
    | inf t => cases s <;> cases t <;> simp_all
    | fin b w => cases s <;> simp
  | fin a z =>
    cases y with
    | nan => exact absurd rfl hy
    | inf t => cases t <;> simp
    | fin b w =>
      simp at hne
      rcases lt_or_gt_of_ne hne with h | h
      · right; simp [h, not_lt.2 h.le]
      · left; simp [h, not_lt.2 h.le]

/-- With a NaN on either side both functions return the second argument. -/
theorem C14_max_min_nan (x y : FV f) (h : x = nan ∨ y = nan) : fmax x y = y ∧ fmin x y = y := by
  unfold fmax fmin
  rcases h with h | h <;> subst h <;> simp

example : fmax (nan : FV binary64) (i 1) = i 1 ∧ fmax (i 1 : FV binary64) nan = nan := by decide +kernel

/-! ## C15–C18: exactness -/

/-- `floor` is exact on zeros and normal values, sign of zero included. -/
theorem C15_floor_exact (hf : f.exact = false) (q : ℚ) (z : Bool) (hx : Valid (fin q z : FV f))
    (hn : q = 0 ∨ minNormal f ≤ |q|) : floor (fin q z : FV f) = .ok (fin ⌊q⌋ z) :=
  floor_check_eq hf hx hn

theorem C15_floor_special (s : Bool) :
    floor (nan : FV f) = .ok nan ∧ floor (inf s : FV f) = .ok (inf s) ∧
    floor (fin 0 s : FV f) = .ok (fin 0 s) :=
  ⟨floor_check_nan, floor_check_inf, floor_check_sub (by simpa using minNormal_pos f)⟩

/-- `ceil` is exact; a zero result from a nonzero argument is `+0`. -/
theorem C16_ceil_exact (hf : f.exact = false) (q : ℚ) (z : Bool) (hx : Valid (fin q z : FV f))
    (hn : q = 0 ∨ minNormal f ≤ |q|) : ceil (fin q z : FV f) = .ok (fin ⌈q⌉ z) :=
  ceil_check_eq hf hx hn

theorem C16_ceil_special (s : Bool) :
    ceil (nan : FV f) = .ok nan ∧ ceil (inf s : FV f) = .ok (inf s) ∧
    ceil (fin 0 s : FV f) = .ok (fin 0 s) :=
  ⟨ceil_check_nan, ceil_check_inf, ceil_check_sub (by simpa using minNormal_pos f)⟩

/-- toward zero, independent of the model -/
def towardZero (q : ℚ) : ℤ := if 0 ≤ q then ⌊q⌋ else ⌈q⌉

/-- `trunc` is exact.  For `-1 < x < 0` the zero result is `-0` in `long double` and `+0` in
`float` and `double`. -/
theorem C17_trunc_exact (hf : f.exact = false) (q : ℚ) (z : Bool) (hx : Valid (fin q z : FV f))
    (hn : q = 0 ∨ minNormal f ≤ |q|) :
    trunc (fin q z : FV f)
      = .ok (fin (towardZero q) (if -1 < q ∧ q < 0 then decide (f.ty = .ldouble) else z)) := by
  have h := trunc_check_eq hf hx hn
  have e : ratTrunc q = towardZero q := by
    unfold towardZero
    split
    · rw [ratTrunc_of_nonneg (by assumption)]
    · rw [ratTrunc_of_nonpos (le_of_not_ge (by assumption))]
  unfold trunc
  rw [h, e]
  congr 2
  unfold truncZ
  rw [e]
  by_cases hc : -1 < q ∧ q < 0
  · have hz := hx.z_false hc.2.ne
    have : towardZero q = 0 := by
      unfold towardZero; rw [if_neg (not_le.2 hc.2)]; exact Int.ceil_eq_iff.2 (by constructor <;> push_cast <;> linarith)
    simp [hc, hz, this]
  · rw [if_neg hc]
    by_cases h0 : q < 0
    · have : towardZero q ≠ 0 := by
        unfold towardZero; rw [if_neg (not_le.2 h0)]
        intro h; rw [Int.ceil_eq_iff] at h; apply hc; push_cast at h; constructor <;> linarith
      simp [this]
    · simp [h0]

theorem C17_trunc_special (s : Bool) :
    trunc (nan : FV f) = .ok nan ∧ trunc (inf s : FV f) = .ok (inf s) ∧
    trunc (fin 0 s : FV f) = .ok (fin 0 s) :=
  ⟨trunc_check_nan, trunc_check_inf, trunc_check_sub (by simpa using minNormal_pos f)⟩

/-- nearest integer, ties away from zero: characterised by inequalities -/
def IsRoundAway (q : ℚ) (n : ℤ) : Prop :=
  |q - n| ≤ 1/2 ∧ (|q - n| = 1/2 → |q| < |(n:ℚ)|)

theorem ratRound_spec (q : ℚ) : IsRoundAway q (ratRound q) := by
  have key : ∀ q : ℚ, 0 ≤ q → IsRoundAway q (ratRound q) := by
    intro q h
    unfold ratRound; rw [if_pos h]
    have h1 := Int.floor_le (q + 1/2)
    have h2 := Int.lt_floor_add_one (q + 1/2)
    refine ⟨abs_le.2 ⟨by linarith, by linarith⟩, ?_⟩
    intro he
    rw [abs_of_nonneg h]
    refine lt_of_lt_of_le ?_ (le_abs_self _)
    rcases abs_eq (by norm_num : (0:ℚ) ≤ 1/2) |>.1 he with h3 | h3 <;> linarith
  rcases le_total 0 q with h | h
  · exact key q h
  · have := key (-q) (by linarith)
    rw [ratRound_neg] at this
    obtain ⟨h1, h2⟩ := this
    push_cast at h1 h2
    have e : |-q - -(ratRound q : ℚ)| = |q - ratRound q| := by
      rw [← abs_neg]; congr 1; ring
    rw [e] at h1 h2
    rw [abs_neg, abs_neg] at h2
    exact ⟨h1, h2⟩

/-- the characterisation determines the integer -/
theorem IsRoundAway.unique {q : ℚ} {m n : ℤ} (h1 : IsRoundAway q m) (h2 : IsRoundAway q n) : m = n := by
  by_contra hne
  have key : ∀ m n : ℤ, IsRoundAway q m → IsRoundAway q n → ¬ m < n := by
    intro m n h1 h2 hlt
    have hc : (m:ℚ) + 1 ≤ n := by exact_mod_cast hlt
    have a1 := abs_le.1 h1.1
    have a2 := abs_le.1 h2.1
    have e1 : q - m = 1/2 := by linarith
    have e2 : q - n = -(1/2) := by linarith
    have b1 := h1.2 (by rw [e1]; norm_num)
    have b2 := h2.2 (by rw [e2]; norm_num)
    rcases le_total 0 q with hq | hq
    · rw [abs_of_nonneg hq] at b1
      have hm : (-1:ℚ) < m ∨ (m:ℚ) ≤ -1 := by rcases lt_or_ge (-1:ℚ) m with h | h <;> simp [h]
      rcases hm with hm | hm
      · have : 0 ≤ m := by have : (-1:ℤ) < m := by exact_mod_cast hm
                           omega
        rw [abs_of_nonneg (by exact_mod_cast this)] at b1; linarith
      · linarith
    · rw [abs_of_nonpos hq] at b2
      have hn : (n:ℚ) < 1 ∨ (1:ℚ) ≤ n := lt_or_ge _ _
      rcases hn with hn | hn
      · have : n ≤ 0 := by have : n < (1:ℤ) := by exact_mod_cast hn
                           omega
        rw [abs_of_nonpos (by exact_mod_cast this)] at b2; linarith
      · linarith
  rcases lt_or_gt_of_ne hne with h | h
  · exact key m n h1 h2 h
  · exact key n m h2 h1 h

/-- `round` is exact with ties away from zero; `-1/2 < x < 0` gives `-0`. -/
theorem C18_round_exact (hf : f.exact = false) (q : ℚ) (z : Bool) (hx : Valid (fin q z : FV f))
    (hn : q = 0 ∨ minNormal f ≤ |q|) :
    ∃ n : ℤ, IsRoundAway q n ∧
      round (fin q z : FV f) = .ok (fin n (if n = 0 ∧ q < 0 then true else z)) := by
  refine ⟨ratRound q, ratRound_spec q, ?_⟩
  unfold round
  rw [round_check_eq hf hx hn]
  congr 2
  unfold roundZ
  by_cases h : ratRound q = 0 ∧ q < 0
  · simp [h]
  · rw [if_neg h]
    by_cases h2 : q < 0
    · simp only [h2, and_true] at h; simp [h]
    · simp [h2]

theorem C18_round_special (s : Bool) :
    round (nan : FV f) = .ok nan ∧ round (inf s : FV f) = .ok (inf s) ∧
    round (fin 0 s : FV f) = .ok (fin 0 s) :=
  ⟨round_check_nan, round_check_inf, round_check_sub (by simpa using minNormal_pos f)⟩

-- concrete instances of the hypotheses: 5/2, -7/4, the float just below 1/2, a value near 2^52
example : Valid (fin (5/2) false : FV binary64) ∧ minNormal binary64 ≤ |(5/2 : ℚ)| := by decide +kernel
example : floor (fin (-7/4) false : FV binary32) = .ok (fin (-2) false) := by decide +kernel
example : Valid (fin (1/2 - 1/33554432) false : FV binary32) ∧
    round (fin (1/2 - 1/33554432) false : FV binary32) = .ok (fin 0 false) := by decide +kernel
example : ceil (fin (-1/2) false : FV x87) = .ok (fin 0 false) := by decide +kernel
example : trunc (fin (-1/2) false : FV x87) = .ok (fin 0 true) ∧
    trunc (fin (-1/2) false : FV binary64) = .ok (fin 0 false) := by decide +kernel
example : round (fin (4503599627370495 + 1/2) false : FV binary64) = .ok (fin 4503599627370496 false) := by
  decide +kernel

/-! ## C19: subnormals -/

/-- Every subnormal is returned unchanged by all four functions. -/
theorem C19_subnormal_unchanged (q : ℚ) (z : Bool) (h : |q| < minNormal f) :
    floor (fin q z : FV f) = .ok (fin q z) ∧ ceil (fin q z : FV f) = .ok (fin q z) ∧
    trunc (fin q z : FV f) = .ok (fin q z) ∧ round (fin q z : FV f) = .ok (fin q z) :=
  ⟨floor_check_sub h, ceil_check_sub h, trunc_check_sub h, round_check_sub h⟩

/-- … and a nonzero subnormal is never an integer, so all four results are wrong. -/
theorem C19_subnormal_not_integer (q : ℚ) (h0 : q ≠ 0) (h : |q| < minNormal f) : ∀ n : ℤ, q ≠ n := by
  rintro n rfl
  have h1 := h.trans (minNormal_lt_one f)
  have : |n| < 1 := by rw [← Int.cast_abs] at h1; have : ((|n| : ℤ) : ℚ) < 1 := by linarith
                       exact_mod_cast this
  rw [Int.abs_lt_one_iff] at this
  exact h0 (by simp [this])

example : Valid (fin (-pow2 (-1074)) false : FV binary64) ∧
    |(-pow2 (-1074))| < minNormal binary64 ∧
    floor (fin (-pow2 (-1074)) false : FV binary64) = .ok (fin (-pow2 (-1074)) false) := by decide +kernel

/-! ## C20: laws -/

/-- none of the four functions hits undefined behaviour, on any value -/
theorem C20_total (hf : f.exact = false) (x : FV f) (hx : Valid x) :
    (∃ r, floor x = .ok r) ∧ (∃ r, ceil x = .ok r) ∧ (∃ r, trunc x = .ok r) ∧ (∃ r, round x = .ok r) := by
  cases x with
  | nan => exact ⟨⟨_, floor_check_nan⟩, ⟨_, ceil_check_nan⟩, ⟨_, trunc_check_nan⟩, ⟨_, round_check_nan⟩⟩
  | inf s => exact ⟨⟨_, floor_check_inf⟩, ⟨_, ceil_check_inf⟩, ⟨_, trunc_check_inf⟩, ⟨_, round_check_inf⟩⟩
  | fin q z =>
    by_cases h : |q| < minNormal f
    · exact ⟨⟨_, floor_check_sub h⟩, ⟨_, ceil_check_sub h⟩, ⟨_, trunc_check_sub h⟩, ⟨_, round_check_sub h⟩⟩
    · have hn : Normal f q := Or.inr (not_lt.1 h)
      exact ⟨⟨_, floor_check_eq hf hx hn⟩, ⟨_, ceil_check_eq hf hx hn⟩,
        ⟨_, trunc_check_eq hf hx hn⟩, ⟨_, round_check_eq hf hx hn⟩⟩

/-- values on which the result is exact: normal values and zeros, or subnormals (fixed) -/
theorem normal_or_sub (q : ℚ) : |q| < minNormal f ∨ Normal f q := by
  rcases lt_or_ge |q| (minNormal f) with h | h
  · exact Or.inl h
  · exact Or.inr (Or.inr h)

theorem normal_int (n : ℤ) : Normal f n := by
  by_cases h : n = 0
  · left; simp [h]
  · right
    have : 1 ≤ |n| := Int.one_le_abs h
    have h2 : (1:ℚ) ≤ |(n:ℚ)| := by rw [← Int.cast_abs]; exact_mod_cast this
    have := minNormal_lt_one f
    linarith

/-- floor ≤ x ≤ ceil and floor ≤ trunc ≤ ceil, for every finite value (subnormals included). -/
theorem C20_ordering (hf : f.exact = false) (x : FV f) (hx : Valid x) (hfin : x.isFin) :
    ∃ a b c, floor x = .ok a ∧ ceil x = .ok b ∧ trunc x = .ok c ∧
      a ≤ x ∧ x ≤ b ∧ a ≤ c ∧ c ≤ b := by
  cases x with
  | nan => exact absurd hfin (by simp [isFin])
  | inf s => exact absurd hfin (by simp [isFin])
  | fin q z =>
    rcases normal_or_sub (f := f) q with h | h
    · exact ⟨_, _, _, floor_check_sub h, ceil_check_sub h, trunc_check_sub h, by simp, by simp, by simp, by simp⟩
    · refine ⟨_, _, _, floor_check_eq hf hx h, ceil_check_eq hf hx h, trunc_check_eq hf hx h, ?_, ?_, ?_, ?_⟩
      · simpa using Int.floor_le q
      · simpa using Int.le_ceil q
      · rw [fin_le]
        rcases le_total 0 q with h0 | h0
        · rw [ratTrunc_of_nonneg h0]
        · rw [ratTrunc_of_nonpos h0]; exact_mod_cast Int.floor_le_ceil q
      · rw [fin_le]
        rcases le_total 0 q with h0 | h0
        · rw [ratTrunc_of_nonneg h0]; exact_mod_cast Int.floor_le_ceil q
        · rw [ratTrunc_of_nonpos h0]

theorem trunc_of_int (n : ℤ) : ratTrunc (n : ℚ) = n := ratTrunc_int n
theorem round_of_int (n : ℤ) : ratRound (n : ℚ) = n :=
  (ratRound_spec n).unique ⟨by simp, by simp⟩

theorem fin_int_valid (hf : f.exact = false) {q : ℚ} {z w : Bool} {n : ℤ} (hx : Valid (fin q z : FV f))
    (hn : (n:ℚ) = ⌊q⌋ ∨ (n:ℚ) = ⌈q⌉) (hw : w = true → n = 0) : Valid (fin (n:ℚ) w : FV f) := by
  by_cases hb : (2:ℚ) ^ (f.prec - 1) ≤ |q|
  · obtain ⟨m, hm⟩ := int_of_big hf hx.rep hb
    have hmn : (n:ℚ) = q := by
      rcases hn with h | h <;> rw [h, hm] <;> simp
    rw [hmn]
    exact ⟨hx.rep, hx.novf, fun h => by rw [← hmn, hw h]; simp⟩
  · push Not at hb
    rw [abs_lt] at hb
    have hP := pow_prec_bound f
    have hle : |n| ≤ 2 ^ f.prec := by
      have h1 := Int.floor_le q
      have h2 := Int.lt_floor_add_one q
      have h3 := Int.le_ceil q
      have h4 := Int.ceil_lt_add_one q
      have e1 : (-(2 ^ (f.prec - 1)) : ℚ) - 1 < n := by rcases hn with h | h <;> linarith
      have e2 : (n : ℚ) < 2 ^ (f.prec - 1) + 1 := by rcases hn with h | h <;> linarith
      have e1' : (-(2 ^ (f.prec - 1)) : ℤ) - 1 < n := by exact_mod_cast e1
      have e2' : n < 2 ^ (f.prec - 1) + 1 := by exact_mod_cast e2
      rw [abs_le]; constructor <;> omega
    exact ⟨rep_int hle, overflows_int hle, fun h => by rw [hw h]; simp⟩

theorem ratTrunc_floor_or_ceil (q : ℚ) : (ratTrunc q : ℚ) = ⌊q⌋ ∨ (ratTrunc q : ℚ) = ⌈q⌉ := by
  rcases le_total 0 q with h | h
  · left; rw [ratTrunc_of_nonneg h]
  · right; rw [ratTrunc_of_nonpos h]

theorem ratRound_floor_or_ceil (q : ℚ) : (ratRound q : ℚ) = ⌊q⌋ ∨ (ratRound q : ℚ) = ⌈q⌉ := by
  have h := abs_le.1 (ratRound_spec q).1
  have h1 := Int.floor_le q
  have h2 := Int.lt_floor_add_one q
  have h3 := Int.le_ceil q
  have h4 := Int.ceil_lt_add_one q
  have e1 : (⌊q⌋:ℚ) - 1 < ratRound q := by linarith
  have e2 : (ratRound q : ℚ) < ⌈q⌉ + 1 := by linarith
  have e1' : ⌊q⌋ - 1 < ratRound q := by exact_mod_cast e1
  have e2' : ratRound q < ⌈q⌉ + 1 := by exact_mod_cast e2
  have e3 := Int.ceil_le_floor_add_one q
  have : ratRound q = ⌊q⌋ ∨ ratRound q = ⌈q⌉ := by omega
  exact_mod_cast this

/-- All four functions are idempotent, on every value whatever. -/
theorem C20_idempotent (hf : f.exact = false) (x : FV f) (hx : Valid x) :
    (∃ r, floor x = .ok r ∧ floor r = .ok r) ∧ (∃ r, ceil x = .ok r ∧ ceil r = .ok r) ∧
    (∃ r, trunc x = .ok r ∧ trunc r = .ok r) ∧ (∃ r, round x = .ok r ∧ round r = .ok r) := by
  cases x with
  | nan => exact ⟨⟨_, floor_check_nan, floor_check_nan⟩, ⟨_, ceil_check_nan, ceil_check_nan⟩,
      ⟨_, trunc_check_nan, trunc_check_nan⟩, ⟨_, round_check_nan, round_check_nan⟩⟩
  | inf s => exact ⟨⟨_, floor_check_inf, floor_check_inf⟩, ⟨_, ceil_check_inf, ceil_check_inf⟩,
      ⟨_, trunc_check_inf, trunc_check_inf⟩, ⟨_, round_check_inf, round_check_inf⟩⟩
  | fin q z =>
    rcases normal_or_sub (f := f) q with h | h
    · exact ⟨⟨_, floor_check_sub h, floor_check_sub h⟩, ⟨_, ceil_check_sub h, ceil_check_sub h⟩,
        ⟨_, trunc_check_sub h, trunc_check_sub h⟩, ⟨_, round_check_sub h, round_check_sub h⟩⟩
    · refine ⟨⟨_, floor_check_eq hf hx h, ?_⟩, ⟨_, ceil_check_eq hf hx h, ?_⟩,
        ⟨_, trunc_check_eq hf hx h, ?_⟩, ⟨_, round_check_eq hf hx h, ?_⟩⟩
      · have hv : Valid (fin (⌊q⌋:ℚ) z : FV f) := fin_int_valid hf hx (Or.inl rfl)
          (fun hz => by rw [hx.z hz]; simp)
        have := floor_check_eq hf hv (normal_int _)
        rw [Int.floor_intCast] at this; exact this
      · have hv : Valid (fin (⌈q⌉:ℚ) z : FV f) := fin_int_valid hf hx (Or.inr rfl)
          (fun hz => by rw [hx.z hz]; simp)
        have := ceil_check_eq hf hv (normal_int _)
        rw [Int.ceil_intCast] at this; exact this
      · have hz : truncZ f q z = true → ratTrunc q = 0 := by
          unfold truncZ
          cases z
          · simp; intro _ h _; exact h
          · rw [hx.z rfl]; intro _; simp [ratTrunc]
        have hv : Valid (fin (ratTrunc q:ℚ) (truncZ f q z) : FV f) :=
          fin_int_valid hf hx (ratTrunc_floor_or_ceil q) hz
        have := trunc_check_eq hf hv (normal_int _)
        rw [ratTrunc_int] at this
        refine this.trans ?_
        congr 2
        unfold truncZ
        by_cases h0 : ratTrunc q = 0
        · simp [h0]
        · simp [ratTrunc_int, h0]
      · have hz : roundZ q z = true → ratRound q = 0 := by
          unfold roundZ
          cases z
          · simp; intro h _; exact h
          · rw [hx.z rfl]; intro _; have := round_of_int 0; simpa using this
        have hv : Valid (fin (ratRound q:ℚ) (roundZ q z) : FV f) :=
          fin_int_valid hf hx (ratRound_floor_or_ceil q) hz
        have := round_check_eq hf hv (normal_int _)
        rw [round_of_int] at this
        refine this.trans ?_
        congr 2
        unfold roundZ
        by_cases h0 : ratRound q = 0
        · simp [h0]
        · simp [round_of_int, h0]

/-- ceil(-x) = -floor(x), trunc and round are odd, up to the sign of zero, on every value. -/
theorem C20_reflection (hf : f.exact = false) (x : FV f) (hx : Valid x) :
    (∃ a b, ceil (-x) = .ok a ∧ floor x = .ok b ∧ a ≃ -b) ∧
    (∃ a b, trunc (-x) = .ok a ∧ trunc x = .ok b ∧ a ≃ -b) ∧
    (∃ a b, round (-x) = .ok a ∧ round x = .ok b ∧ a ≃ -b) := by
  cases x with
  | nan => exact ⟨⟨_, _, ceil_check_nan, floor_check_nan, by simp [Same]⟩,
      ⟨_, _, trunc_check_nan, trunc_check_nan, by simp [Same]⟩, ⟨_, _, round_check_nan, round_check_nan, by simp [Same]⟩⟩
  | inf s => exact ⟨⟨_, _, ceil_check_inf, floor_check_inf, by simp [Same]⟩,
      ⟨_, _, trunc_check_inf, trunc_check_inf, by simp [Same]⟩, ⟨_, _, round_check_inf, round_check_inf, by simp [Same]⟩⟩
  | fin q z =>
    have hx' := hx.neg
    rw [neg_fin] at *
    rcases normal_or_sub (f := f) q with h | h
    · have h' : |-q| < minNormal f := by rwa [abs_neg]
      exact ⟨⟨_, _, ceil_check_sub h', floor_check_sub h, by simp [Same, neg_fin]⟩,
        ⟨_, _, trunc_check_sub h', trunc_check_sub h, by simp [Same, neg_fin]⟩,
        ⟨_, _, round_check_sub h', round_check_sub h, by simp [Same, neg_fin]⟩⟩
    · have h' : Normal f (-q) := by unfold Normal at *; rw [abs_neg, neg_eq_zero]; exact h
      refine ⟨⟨_, _, ceil_check_eq hf hx' h', floor_check_eq hf hx h, ?_⟩,
        ⟨_, _, trunc_check_eq hf hx' h', trunc_check_eq hf hx h, ?_⟩,
        ⟨_, _, round_check_eq hf hx' h', round_check_eq hf hx h, ?_⟩⟩
      · simp [Same, neg_fin, Int.ceil_neg]
      · simp [Same, neg_fin, ratTrunc_neg]
      · simp [Same, neg_fin, ratRound_neg]

theorem ratRound_mono {a b : ℚ} (h : a ≤ b) : ratRound a ≤ ratRound b := by
  unfold ratRound
  split
  · rw [if_pos (by linarith)]; exact Int.floor_mono (by linarith)
  · split
    · have h1 : 0 ≤ ⌊-a + 1/2⌋ := Int.floor_nonneg.2 (by linarith)
      have h2 : 0 ≤ ⌊b + 1/2⌋ := Int.floor_nonneg.2 (by linarith)
      omega
    · exact neg_le_neg (Int.floor_mono (by linarith))

/-- All four functions are monotone on zeros and normal values. -/
theorem C20_monotone (hf : f.exact = false) (a b : ℚ) (za zb : Bool)
    (ha : Valid (fin a za : FV f)) (hb : Valid (fin b zb : FV f))
    (hna : a = 0 ∨ minNormal f ≤ |a|) (hnb : b = 0 ∨ minNormal f ≤ |b|) (h : a ≤ b) :
    (∃ r s, floor (fin a za : FV f) = .ok r ∧ floor (fin b zb : FV f) = .ok s ∧ r ≤ s) ∧
    (∃ r s, ceil (fin a za : FV f) = .ok r ∧ ceil (fin b zb : FV f) = .ok s ∧ r ≤ s) ∧
    (∃ r s, trunc (fin a za : FV f) = .ok r ∧ trunc (fin b zb : FV f) = .ok s ∧ r ≤ s) ∧
    (∃ r s, round (fin a za : FV f) = .ok r ∧ round (fin b zb : FV f) = .ok s ∧ r ≤ s) := by
  refine ⟨⟨_, _, floor_check_eq hf ha hna, floor_check_eq hf hb hnb, ?_⟩,
    ⟨_, _, ceil_check_eq hf ha hna, ceil_check_eq hf hb hnb, ?_⟩,
    ⟨_, _, trunc_check_eq hf ha hna, trunc_check_eq hf hb hnb, ?_⟩,
    ⟨_, _, round_check_eq hf ha hna, round_check_eq hf hb hnb, ?_⟩⟩
  · rw [fin_le]; exact_mod_cast Int.floor_mono h
  · rw [fin_le]; exact_mod_cast Int.ceil_mono h
  · rw [fin_le]; exact_mod_cast ratTrunc_mono h
  · rw [fin_le]; exact_mod_cast ratRound_mono h

/-- Monotonicity fails across subnormals: they are returned unchanged, so `a ≤ b` with `floor a > floor b` exists. -/
theorem C20_not_monotone_subnormal :
    ∃ a b : FV binary64, Valid a ∧ Valid b ∧ a ≤ b ∧
      ∃ r s, floor a = .ok r ∧ floor b = .ok s ∧ ¬ (r ≤ s) :=
  ⟨fin (pow2 (-1074)) false, limMin, by decide +kernel, by decide +kernel, by decide +kernel,
    fin (pow2 (-1074)) false, fin 0 false, by decide +kernel, by decide +kernel, by decide +kernel⟩

example : Valid (fin (-5/2) false : FV x87) ∧ (fin (-5/2) false : FV x87).isFin := by decide +kernel

/-! ## C21: integral arguments -/

/-- All four functions return the argument correctly rounded to `double`
(`|n| ≤ 2^64` covers every integer type of the platform). -/
theorem C21_integral_value (n : ℤ) (h : |n| ≤ 2 ^ 64) :
    ∃ z, floorI n = .ok (fin (rnd binary64 n) z) ∧ ceilI n = .ok (fin (rnd binary64 n) z) ∧
      truncI n = .ok (fin (rnd binary64 n) z) ∧ roundI n = .ok (fin (rnd binary64 n) z) := by
  unfold floorI ceilI truncI roundI ofIntegral
  have ho : overflows binary64 (rnd binary64 (n:ℚ)) = false := by
    rw [overflows_false_iff]; right
    refine lt_of_le_of_lt (abs_rnd_le_of_rep (r := pow2 64) (rep_pow2 (by decide)) ?_) (pow2_lt (by decide))
    rw [← Int.cast_abs, show (64:ℤ) = ((64:ℕ):ℤ) from rfl, pow2_nat]
    exact_mod_cast h
  have e : (i n : FV binary64) = fin (rnd binary64 n) (decide (rnd binary64 (n:ℚ) = 0) && (decide ((n:ℚ) < 0) || (decide ((n:ℚ) = 0) && false))) := mk_fin ho
  have hv : Valid (i n : FV binary64) := valid_i n
  rw [e] at hv ⊢
  have hint : ∃ m : ℤ, rnd binary64 (n:ℚ) = m := by
    by_cases hs : |n| ≤ 2 ^ 53
    · exact ⟨n, rep_int hs⟩
    · refine int_of_big rfl (rep_rnd _ _) ?_
      rw [abs_rnd]
      apply le_rnd_of_rep
      · have := rep_pow2 (f := binary64) (e := ((binary64.prec - 1 : ℕ) : ℤ)) (by decide)
        rwa [pow2_nat] at this
      · rw [← Int.cast_abs]
        have : (2:ℤ) ^ (binary64.prec - 1) ≤ |n| := by
          have : (2:ℤ) ^ (binary64.prec - 1) ≤ 2 ^ 53 := by decide
          omega
        exact_mod_cast this
  obtain ⟨m, hm⟩ := hint
  rw [hm] at hv ⊢
  have hz : n = 0 → m = 0 := by
    intro h; subst h; simp [rnd_zero] at hm; exact_mod_cast hm.symm
  have hz2 : m = 0 → n = 0 := by
    intro h; subst h; by_contra hn
    refine rnd_ne_zero_of_rep (f := binary64) (q := (n:ℚ)) (r := 1) (by simpa using rep_int (f := binary64) (n := 1) (by decide)) (by norm_num) ?_ (by simpa using hm)
    have := Int.one_le_abs hn
    rw [← Int.cast_abs]; exact_mod_cast this
  have hzz : (decide ((m:ℚ) = 0) && (decide ((n:ℚ) < 0) || (decide ((n:ℚ) = 0) && false))) = false := by
    by_cases h : m = 0
    · simp [hz2 h]
    · simp [h]
  rw [hzz] at hv ⊢
  refine ⟨false, ?_, ?_, ?_, ?_⟩
  · rw [floor_check_eq rfl hv (normal_int m), Int.floor_intCast]
  · rw [ceil_check_eq rfl hv (normal_int m), Int.ceil_intCast]
  · rw [trunc_check_eq rfl hv (normal_int m), ratTrunc_int]; simp [truncZ]
  · rw [round_check_eq rfl hv (normal_int m), round_of_int]
    congr 2
    by_cases h : m = 0
    · simp [roundZ, h]
    · simp [roundZ, round_of_int, h]

/-- exact up to 2^53 in magnitude -/
theorem C21_integral_exact (n : ℤ) (h : |n| ≤ 2 ^ 53) :
    ∃ z, floorI n = .ok (fin n z) ∧ ceilI n = .ok (fin n z) ∧
      truncI n = .ok (fin n z) ∧ roundI n = .ok (fin n z) := by
  have := C21_integral_value n (le_trans h (by norm_num))
  rwa [show rnd binary64 (n:ℚ) = n from rep_int h] at this

/-- but `floor(2^53+1)` is `2^53` -/
theorem C21_integral_inexact :
    floorI (2 ^ 53 + 1) = .ok (fin (2 ^ 53) false) ∧ ceilI (2 ^ 53 + 1) = .ok (fin (2 ^ 53) false) := by
  decide +kernel

example : |(123456789 : ℤ)| ≤ 2 ^ 53 := by decide

end Gcem.Props
