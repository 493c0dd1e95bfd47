import Verif.Props.Fmod
import Verif.Props.Hypot
import Verif.Props.Rounding
import Verif.Props.Hyper
import Verif.Props.Range

/-! # C97: scaling and reflecting the arguments of hypot, atan2 and fmod; error of fmod -/

namespace Gcem.Props
open FV

variable {f : Fmt}

/-- rounding commutes with a multiplication by a power of two, away from the subnormal range -/
theorem sc_rnd (hf : f.exact = false) {q : ℚ} (k : ℕ) (h : minNormal f ≤ |q|) : rnd f (pow2 k * q) = pow2 k * rnd f q := by
  have m0 := minNormal_pos f
  have q0 : q ≠ 0 := by rintro rfl; simp at h; linarith
  have pk := pow2_pos (k:ℤ)
  have s0 : pow2 k * q ≠ 0 := mul_ne_zero pk.ne' q0
  have il : ilog2 (pow2 k * q) = ilog2 q + k := by
    obtain ⟨h1, h2⟩ := ilog2_spec q0
    refine ilog2_unique ?_ ?_
    · rw [abs_mul, abs_of_pos pk, pow2_add, mul_comm]
      exact mul_le_mul_of_nonneg_left h1 pk.le
    · rw [abs_mul, abs_of_pos pk, show ilog2 q + (k:ℤ) + 1 = k + (ilog2 q + 1) by ring, pow2_add]
      exact mul_lt_mul_of_pos_left h2 pk
  have lo : f.emin + (f.prec - 1) ≤ ilog2 q := by
    rw [le_ilog2_iff q0]
    refine le_trans (le_of_eq ?_) h
    unfold minNormal
    first | rfl | (congr 1; ring)
  have e1 : fexp f q = ilog2 q - (f.prec - 1) := by unfold fexp; omega
  have e2 : fexp f (pow2 k * q) = fexp f q + k := by rw [e1]; unfold fexp; rw [il]; omega
  rw [rnd_def hf q0, rnd_def hf s0, e2, pow2_add]
  have p1 := pow2_pos (fexp f q)
  rw [show pow2 k * q / (pow2 (fexp f q) * pow2 k) = q / pow2 (fexp f q) by field_simp]
  ring

theorem sc_rep (hf : f.exact = false) {q : ℚ} (k : ℕ) (h : Rep f q) : Rep f (pow2 k * q) := by
  by_cases q0 : q = 0
  · rw [q0, mul_zero]; exact Rep.zero
  obtain ⟨m, hm, hb⟩ := rep_scaled hf q0 h
  rw [hm, show pow2 k * ((m:ℚ) * pow2 (fexp f q)) = m * pow2 (fexp f q + k) by rw [pow2_add]; ring]
  exact rep_of_scaled hb.le (by have := fexp_ge f q; omega)

theorem sc_neg (k : ℕ) (q : ℚ) : pow2 k * q < 0 ↔ q < 0 := by
  have pk := pow2_pos (k:ℤ)
  constructor
  · intro h; by_contra hc; push Not at hc; have := mul_nonneg pk.le hc; linarith
  · intro h; exact mul_neg_of_pos_of_neg pk h

theorem sc_sign {q : ℚ} (z : Bool) (k : ℕ) : sign (fin (pow2 k * q) z : FV f) = sign (fin q z : FV f) := by
  have pk := pow2_pos (k:ℤ)
  simp only [sign]
  by_cases h : q = 0
  · simp [h]
  · rw [if_neg h, if_neg (mul_ne_zero pk.ne' h)]
    simp [sc_neg]

theorem sc_div {a b : ℚ} {za zb : Bool} (k : ℕ) (hb : b ≠ 0) :
    (fin (pow2 k * a) za : FV f) / fin (pow2 k * b) zb = fin a za / fin b zb := by
  have pk := pow2_pos (k:ℤ)
  rw [fin_div hb, fin_div (mul_ne_zero pk.ne' hb), sc_sign, sc_sign, mul_div_mul_left _ _ pk.ne']

theorem sc_norm {q : ℚ} (k : ℕ) (h : minNormal f ≤ |q|) : minNormal f ≤ |pow2 k * q| := by
  have : (1:ℚ) ≤ pow2 k := by rw [pow2_nat]; exact one_le_pow₀ (by norm_num)
  rw [abs_mul, abs_of_pos (by linarith)]
  have := abs_nonneg q
  nlinarith

/-- a power of two times a rounded value -/
theorem sc_mk (hf : f.exact = false) {q : ℚ} {zs zs' : Bool} (k : ℕ) (q0 : 0 < q) (h : rnd f (pow2 k * q) = pow2 k * rnd f q) (hr : 0 < rnd f q) :
    (fin (pow2 k) false : FV f) * mk f q zs = mk f (pow2 k * q) zs' := by
  have pk := pow2_pos (k:ℤ)
  have k1 : (1:ℚ) ≤ pow2 k := by rw [pow2_nat]; exact one_le_pow₀ (by norm_num)
  have s0 : 0 < pow2 k * q := mul_pos pk q0
  rcases ho : overflows f (rnd f q) with _ | _
  · rw [mk_fin ho, fin_mul]
    have e : rnd f (pow2 k * rnd f q) = pow2 k * rnd f q := by
      have := rep_rnd f (pow2 k * q); rw [h] at this; exact this
    unfold mk
    rw [e, h]
    simp [s0.ne', not_lt.2 s0.le, (mul_pos pk hr).ne', not_lt.2 (mul_pos pk hr).le]
  · have o2 : overflows f (rnd f (pow2 k * q)) = true := by
      by_contra hc
      rw [Bool.not_eq_true] at hc
      rw [h] at hc
      have := overflows_of_abs_le (f := f) (a := rnd f q) (b := pow2 k * rnd f q) (by
        rw [abs_of_pos hr, abs_of_pos (mul_pos pk hr)]; nlinarith) hc
      rw [this] at ho; cases ho
    unfold mk
    simp only [ho, o2, if_true]
    rw [show decide (q < 0) = false by simp [q0.le], show decide (pow2 k * q < 0) = false by simp [s0.le]]
    change FV.mul _ _ = _
    simp only [FV.mul, pk.ne', if_false, sign]
    simp [pk.le]

/-- C97: `hypot(s x, s y) == s hypot(x, y)`, bit for bit, for every power of two `s >= 1` and all normal `x`, `y` for
which `s x` and `s y` are finite (also if the result overflows). -/
theorem C97_hypot (hf : f.exact = false) (q p : ℚ) (z w : Bool) (k : ℕ) (hx : Valid (fin q z : FV f)) (hy : Valid (fin p w : FV f))
    (hnx : minNormal f ≤ |q|) (hny : minNormal f ≤ |p|) (hsx : Valid (fin (pow2 k * q) z : FV f)) (hsy : Valid (fin (pow2 k * p) w : FV f)) :
    hypot (fin (pow2 k * q) z : FV f) (fin (pow2 k * p) w) = (hypot (fin q z : FV f) (fin p w)).map (fin (pow2 k) false * ·) := by
  have m0 := minNormal_pos f
  have pk := pow2_pos (k:ℤ)
  have q0 : q ≠ 0 := by rintro rfl; simp at hnx; linarith
  have fx : fabs (fin q z : FV f) = fin |q| false := fabs_fin hx
  have fy : fabs (fin p w : FV f) = fin |p| false := fabs_fin hy
  have gx : fabs (fin (pow2 k * q) z : FV f) = fin |pow2 k * q| false := fabs_fin hsx
  have gy : fabs (fin (pow2 k * p) w : FV f) = fin |pow2 k * p| false := fabs_fin hsy
  have snx := sc_norm k hnx
  have sny := sc_norm k hny
  have e1 : hypot (fin q z : FV f) (fin p w) = hypot_compute (fin q z) (fin p w / fin q z) := by
    unfold hypot hypot_vals_check
    rw [if_neg (by simp [any_nan]), if_neg (by simp [any_inf]), if_neg (by unfold limMin; rw [gt_iff, fx, fin_lt]; linarith),
      if_neg (by unfold limMin; rw [gt_iff, fy, fin_lt]; linarith)]
  have e2 : hypot (fin (pow2 k * q) z : FV f) (fin (pow2 k * p) w) = hypot_compute (fin (pow2 k * q) z) (fin p w / fin q z) := by
    unfold hypot hypot_vals_check
    rw [if_neg (by simp [any_nan]), if_neg (by simp [any_inf]), if_neg (by unfold limMin; rw [gt_iff, gx, fin_lt]; linarith),
      if_neg (by unfold limMin; rw [gt_iff, gy, fin_lt]; linarith), sc_div k q0]
  rw [e1, e2]
  unfold hypot_compute
  obtain ⟨r, e, r1⟩ := C96_sqrt hf (i 1 + (fin p w / fin q z) * (fin p w / fin q z) : FV f) (valid_add _ _)
    (by
      rw [i_one]
      refine rg_one_add_sq ?_
      rw [fin_div q0]
      unfold mk
      simp only []
      split_ifs <;> simp)
  rw [e, fx, gx]
  refine congrArg Except.ok ?_
  change fin |pow2 k * q| false * r = fin (pow2 k) false * (fin |q| false * r)
  rw [abs_mul, abs_of_pos pk]
  have q1 : 0 < |q| := abs_pos.2 q0
  cases r with
  | nan => rw [i_one] at r1; exact absurd r1 le_nan
  | inf t =>
    rw [i_one, fin_le_inf] at r1; subst r1
    have ip : ∀ c : ℚ, 0 < c → (fin c false : FV f) * inf false = inf false := fun c hc => by
      rw [mul_comm']; exact inf_mul_pos hc
    rw [ip _ q1, ip _ pk, ip _ (mul_pos pk q1)]
  | fin r v =>
    rw [i_one, fin_le] at r1
    have n1 : minNormal f ≤ |q| * r := by nlinarith
    have n0 : 0 < |q| * r := by linarith
    rw [fin_mul, fin_mul, mul_assoc]
    refine (sc_mk hf k n0 (sc_rnd hf k (by rw [abs_of_pos n0]; exact n1)) ?_).symm
    exact lt_of_lt_of_le m0 (rnd_pos n1)

/-- C97: `atan2(s y, s x) == atan2(y, x)`, bit for bit, for every power of two `s >= 1`, every normal `x` and
every finite `y` for which `s x` and `s y` are finite. -/
theorem C97_atan2 (q p : ℚ) (z w : Bool) (k : ℕ) (hx : Valid (fin q z : FV f))
    (hnx : minNormal f ≤ |q|) (hsx : Valid (fin (pow2 k * q) z : FV f)) :
    atan2 (fin (pow2 k * p) w : FV f) (fin (pow2 k * q) z) = atan2 (fin p w) (fin q z) := by
  have m0 := minNormal_pos f
  have pk := pow2_pos (k:ℤ)
  have q0 : q ≠ 0 := by rintro rfl; simp at hnx; linarith
  have snx := sc_norm k hnx
  have e : ∀ (c b : ℚ) (v u : Bool), Valid (fin c v : FV f) → minNormal f ≤ |c| → atan2 (fin b u : FV f) (fin c v) =
      if (fin c v : FV f) < i 0 then
        if (fin b u : FV f) < i 0 then atan (fin b u / fin c v) - L PI else atan (fin b u / fin c v) + L PI
      else atan (fin b u / fin c v) := fun c b v u hv hn => by
    unfold atan2 atan2_type_check atan2_compute
    rw [if_neg (by simp [any_nan]), if_neg (by unfold limMin; rw [gt_iff, fabs_fin hv, fin_lt]; linarith)]
  have s1 : ∀ (c : ℚ) (v : Bool), ((fin (pow2 k * c) v : FV f) < i 0) ↔ ((fin c v : FV f) < i 0) := fun c v => by
    rw [i_zero, fin_lt, fin_lt, sc_neg]
  rw [e _ _ _ _ hsx snx, e _ _ _ _ hx hnx, sc_div k q0]
  simp only [s1]

/-- C97: reflection.  `fmod(-x, y)` is `-fmod(x, y)` and `fmod(x, -y)` is `fmod(x, y)`, up to the sign of a zero, for all
values of the type. -/
theorem C97_fmod_reflect (hf : f.exact = false) (x y : FV f) :
    SameRes (fmod (-x) y) ((fmod x y).map Neg.neg) ∧ SameRes (fmod x (-y)) (fmod x y) := by
  have n1 : ∀ x : FV f, is_nan (-x) = is_nan x := is_nan_neg
  have n2 : ∀ x : FV f, is_finite (-x) = is_finite x := fun x => by cases x <;> simp [neg_fin]
  have a1 : any_nan (-x) y = any_nan x y := by unfold any_nan; rw [n1]
  have a2 : all_finite (-x) y = all_finite x y := by unfold all_finite; rw [n2]
  have a3 : any_nan x (-y) = any_nan x y := by unfold any_nan; rw [n1]
  have a4 : all_finite x (-y) = all_finite x y := by unfold all_finite; rw [n2]
  obtain ⟨-, ⟨a, b, ha, hb, hab⟩, -⟩ := C20_reflection hf (x / y) (valid_div _ _)
  unfold fmod fmod_check
  rw [a1, a2, a3, a4, neg_div', div_neg', ha, hb]
  constructor
  · split_ifs
    · exact SameRes.of_eq rfl
    · exact SameRes.of_eq rfl
    · change -x - a * y ≃ -(x - b * y)
      have h1 : a * y ≃ -(b * y) := by
        have := hab.mul (Same.refl y)
        rwa [neg_mul'] at this
      refine ((Same.refl (-x)).sub h1).trans ?_
      rw [sub_eq_add_neg', sub_eq_add_neg']
      exact neg_add_same _ _
  · split_ifs
    · exact SameRes.of_eq rfl
    · exact SameRes.of_eq rfl
    · change x - a * -y ≃ x - b * y
      have h1 : a * -y ≃ b * y := by
        have := hab.mul (Same.refl (-y))
        rwa [neg_mul_neg'] at this
      exact (Same.refl x).sub h1

/-! ## fmod -/

theorem sc_tz {c : ℚ} (h : 1 ≤ |c|) : (towardZero c : ℤ) ≠ 0 ∧ |(towardZero c : ℚ)| ≤ |c| ∧ |c| < |(towardZero c : ℚ)| + 1 ∧ 0 < (towardZero c : ℚ) * c := by
  unfold towardZero
  split_ifs with h0
  · rw [abs_of_nonneg h0] at h ⊢
    have a := Int.floor_le c
    have b := Int.lt_floor_add_one c
    have f1 : (1:ℤ) ≤ ⌊c⌋ := by rw [Int.le_floor]; push_cast; exact h
    have f1q : (1:ℚ) ≤ ⌊c⌋ := by exact_mod_cast f1
    rw [abs_of_pos (by linarith)]
    exact ⟨by omega, a, b, by nlinarith⟩
  · push Not at h0
    rw [abs_of_neg h0] at h ⊢
    have a := Int.le_ceil c
    have b := Int.ceil_lt_add_one c
    have f1 : ⌈c⌉ ≤ (-1:ℤ) := by rw [Int.ceil_le]; push_cast; linarith
    have f1q : (⌈c⌉:ℚ) ≤ -1 := by exact_mod_cast f1
    rw [abs_of_neg (by linarith)]
    exact ⟨by omega, by linarith, by linarith, by nlinarith⟩

theorem sc_sub_rep (hf : f.exact = false) {a b : ℚ} (ha : Rep f a) (hb : Rep f b) (h : |a - b| < minNormal f) : Rep f (a - b) := by
  rw [sub_eq_add_neg] at h ⊢
  exact rep_add_small hf ha hb.neg h

/-- the numbers in `fmod`: the rounded product stays close to `a`, on the same side of zero -/
theorem sc_fmod_num {a b : ℚ} (hb : minNormal f ≤ |b|) (hab : |b| ≤ |a|) :
    minNormal f ≤ |(towardZero (rnd f (a / b)) : ℚ) * b| ∧ |(towardZero (rnd f (a / b)) : ℚ) * b| ≤ (1 + uro f) * |a| ∧
      |(towardZero (rnd f (a / b)) : ℚ) - a / b| ≤ 1 + uro f * |a / b| ∧ |a - rnd f (towardZero (rnd f (a / b)) * b)| ≤ |a| ∧
      |rnd f (towardZero (rnd f (a / b)) * b)| ≤ 2 * |a| ∧ 1 ≤ |rnd f (a / b)| := by
  have m0 := minNormal_pos f
  have m1 := minNormal_lt_one f
  have hu := uro_pos f
  have hu1 := uro_lt_half f
  have b0 : b ≠ 0 := by rintro rfl; simp at hb; linarith
  have b1 : 0 < |b| := by linarith
  have a1 : 0 < |a| := by linarith
  have a0 : a ≠ 0 := abs_pos.1 a1
  have q1 : 1 ≤ |a / b| := by rw [abs_div, le_div_iff₀ b1]; linarith
  have er := rnd_err_rel (f := f) (q := a / b) (by linarith)
  set c := rnd f (a / b) with hc
  have c1 : 1 ≤ |c| := by
    rcases le_total 0 (a / b) with g | g
    · rw [abs_of_nonneg g] at q1
      have := le_rnd_of_rep (f := f) rep_one' q1
      exact this.trans (le_abs_self _)
    · rw [abs_of_nonpos g] at q1
      have := rnd_le_of_rep (f := f) rep_one'.neg (by linarith : a / b ≤ -1)
      rw [← hc] at this
      rw [abs_of_neg (by linarith)]; linarith
  obtain ⟨t0, t1, t2, t3⟩ := sc_tz c1
  have ct : |c| ≤ (1 + uro f) * |a / b| := by
    have := abs_add_le (c - a / b) (a / b)
    rw [sub_add_cancel] at this
    linarith
  have aq : |a / b| * |b| = |a| := by rw [← abs_mul, div_mul_cancel₀ _ b0]
  set n := towardZero c with hn
  have nb : |(n:ℚ) * b| ≤ (1 + uro f) * |a| := by
    rw [abs_mul, ← aq]
    nlinarith
  have n1 : 1 ≤ |(n:ℚ)| := by
    have : (1:ℤ) ≤ |n| := Int.one_le_abs t0
    exact_mod_cast this
  have nb1 : minNormal f ≤ |(n:ℚ) * b| := by rw [abs_mul]; nlinarith
  have nd : |(n:ℚ) - a / b| ≤ 1 + uro f * |a / b| := by
    have g : |(n:ℚ) - c| ≤ 1 := by
      rcases le_total 0 c with g | g
      · have : 0 < (n:ℚ) := by by_contra hh; push Not at hh; nlinarith
        rw [abs_of_nonneg g, abs_of_pos this] at *
        rw [abs_le]; constructor <;> linarith
      · have : (n:ℚ) < 0 := by by_contra hh; push Not at hh; nlinarith
        rw [abs_of_nonpos g, abs_of_neg this] at *
        rw [abs_le]; constructor <;> linarith
    have := abs_add_le ((n:ℚ) - c) (c - a / b)
    rw [sub_add_sub_cancel] at this
    linarith
  have e2 := rnd_err_rel (f := f) nb1
  have rb : |rnd f (n * b)| ≤ 2 * |a| := by
    have := abs_add_le (rnd f (n * b) - n * b) (n * b)
    rw [sub_add_cancel] at this
    nlinarith
  -- same sign, so the difference does not exceed the first term
  have sg : 0 ≤ a * rnd f (n * b) := by
    have h1 : 0 ≤ a * ((n:ℚ) * b) := by
      have h2 : 0 < c * (a / b) := by
        rcases lt_or_ge 0 (a / b) with g | g
        · have := rnd_nonneg (f := f) g.le
          rw [← hc] at this
          rw [abs_of_nonneg this] at c1
          nlinarith
        · have := rnd_le_of_rep (f := f) Rep.zero g
          rw [← hc] at this
          rw [abs_of_nonpos this] at c1
          rw [abs_of_nonpos g] at q1
          nlinarith
      have h3 : 0 < (n:ℚ) * (a / b) := by
        have : 0 < ((n:ℚ) * c) * (c * (a / b)) := mul_pos t3 h2
        have e : ((n:ℚ) * c) * (c * (a / b)) = c ^ 2 * ((n:ℚ) * (a / b)) := by ring
        rw [e] at this
        by_contra hh
        push Not at hh
        have := mul_nonpos_of_nonneg_of_nonpos (sq_nonneg c) hh
        linarith
      have e : a * ((n:ℚ) * b) = (n:ℚ) * (a / b) * b ^ 2 := by field_simp
      rw [e]; positivity
    rcases le_total 0 ((n:ℚ) * b) with g | g
    · have := rnd_nonneg (f := f) g
      have : 0 ≤ a := by
        by_contra hh
        push Not at hh
        have : (n:ℚ) * b ≤ 0 := by nlinarith
        have : (n:ℚ) * b = 0 := le_antisymm this g
        rw [this, abs_zero] at nb1; linarith
      positivity
    · have h2 := rnd_le_of_rep (f := f) Rep.zero g
      have : a ≤ 0 := by
        by_contra hh
        push Not at hh
        have : 0 ≤ (n:ℚ) * b := by nlinarith
        have : (n:ℚ) * b = 0 := le_antisymm g this
        rw [this, abs_zero] at nb1; linarith
      nlinarith
  have dd : |a - rnd f (n * b)| ≤ |a| := by
    rcases le_total 0 a with g | g
    · have : 0 ≤ rnd f (n * b) := by
        by_contra hh
        push Not at hh
        have : 0 < a := lt_of_le_of_ne g (Ne.symm a0)
        nlinarith
      rw [abs_of_nonneg g, abs_of_nonneg this] at *
      rw [abs_le]; constructor <;> linarith
    · have : rnd f (n * b) ≤ 0 := by
        by_contra hh
        push Not at hh
        have : a < 0 := lt_of_le_of_ne g a0
        nlinarith
      rw [abs_of_nonpos g, abs_of_nonpos this] at *
      rw [abs_le]; constructor <;> linarith
  exact ⟨nb1, nb, nd, dd, rb, c1⟩

/-- `fmod` when the quotient is at least 1 in magnitude and finite: one rounded product and one rounded difference -/
theorem sc_fmod (hf : f.exact = false) {a b : ℚ} {za zb : Bool} (hx : Valid (fin a za : FV f)) (hy : Valid (fin b zb : FV f))
    (hb : minNormal f ≤ |b|) (hab : |b| ≤ |a|) (ha : 2 * |a| < pow2 f.emax) (ho : overflows f (rnd f (a / b)) = false) :
    fmod (fin a za : FV f) (fin b zb) = .ok (fin (rnd f (a - rnd f (towardZero (rnd f (a / b)) * b))) false) ∧
      minNormal f ≤ |(towardZero (rnd f (a / b)) : ℚ) * b| ∧ |(towardZero (rnd f (a / b)) : ℚ) * b| ≤ (1 + uro f) * |a| ∧
      |(towardZero (rnd f (a / b)) : ℚ) - a / b| ≤ 1 + uro f * |a / b| ∧ |a - rnd f (towardZero (rnd f (a / b)) * b)| ≤ |a| := by
  have m0 := minNormal_pos f
  have hu := uro_pos f
  have hu1 := uro_lt_half f
  have b0 : b ≠ 0 := by rintro rfl; simp at hb; linarith
  have a0 : a ≠ 0 := abs_pos.1 (by linarith)
  obtain ⟨nb1, nb, nd, dd, rb, c1⟩ := sc_fmod_num hb hab
  refine ⟨?_, nb1, nb, nd, dd⟩
  clear nb nd nb1
  have m1 := minNormal_lt_one f
  set c := rnd f (a / b) with hc
  set n := towardZero c with hn
  unfold fmod fmod_check
  rw [if_neg (by simp [any_nan]), if_neg (by simp [all_finite]), fin_div b0]
  have hv := valid_mk (f := f) (a / b) (sign (fin a za : FV f) ^^ sign (fin b zb : FV f))
  rw [mk_fin (by rw [← hc]; exact ho), ← hc] at hv ⊢
  rw [C17_trunc_exact hf c _ hv (Or.inr (by linarith))]
  simp only [bind, Except.bind]
  refine congrArg Except.ok ?_
  rw [fin_mul, mk_fin (overflows_false_iff.2 (Or.inr (lt_of_le_of_lt rb ha))), fin_sub]
  have za0 := hx.z_false a0
  have hr : |rnd f (a - rnd f (n * b))| ≤ |a| := by
    rcases abs_le.1 dd with ⟨l, u⟩
    have ra : Rep f |a| := by
      rcases abs_choice a with g | g <;> rw [g]
      · exact hx.rep
      · exact hx.rep.neg
    rw [abs_le]
    exact ⟨le_rnd_of_rep ra.neg l, rnd_le_of_rep ra u⟩
  rw [mk_fin (overflows_of_abs_le hr hx.novf), za0]
  have z0 : rnd f (a - rnd f (n * b)) = 0 → a - rnd f (n * b) = 0 := fun h => by
    rcases lt_or_ge |a - rnd f (n * b)| (minNormal f) with g | g
    · have := sc_sub_rep hf hx.rep (rep_rnd f (n * b)) g
      rw [← h]; exact this.symm
    · have h3 := rnd_err_rel (f := f) g
      rw [h, zero_sub, abs_neg] at h3
      nlinarith
  by_cases h : rnd f (a - rnd f (n * b)) = 0
  · have := z0 h
    rw [this]; simp
  · simp [h]

/-- C97: error of `fmod`.  For finite `x`, `y` with `y` normal, `|y| <= |x|`, `2|x|` and `x/y` in range, `fmod(x, y)` is
within `3u|x|` of `x - n y` for an integer `n` that differs from `x/y` by at most `1 + u|x/y|`. -/
theorem C97_fmod_error (hf : f.exact = false) (a b : ℚ) (za zb : Bool) (hx : Valid (fin a za : FV f)) (hy : Valid (fin b zb : FV f))
    (hb : minNormal f ≤ |b|) (hab : |b| ≤ |a|) (ha : 2 * |a| < pow2 f.emax) (ho : 2 * |a / b| < pow2 f.emax) :
    ∃ (r : ℚ) (n : ℤ), fmod (fin a za : FV f) (fin b zb) = .ok (fin r false) ∧ |(n:ℚ) - a / b| ≤ 1 + 1 / 2 ^ f.prec * |a / b| ∧
      |r - (a - n * b)| ≤ 3 * (1 / 2 ^ f.prec) * |a| ∧ |r| ≤ |a| := by
  have m0 := minNormal_pos f
  have m1 := minNormal_lt_one f
  have hu := uro_pos f
  have hu1 := uro_lt_half f
  have b1 : 0 < |b| := by linarith
  have ue : uro f = 1 / 2 ^ f.prec := by unfold uro; rw [pow2_eq, zpow_neg, zpow_natCast, one_div]
  have q1 : 1 ≤ |a / b| := by rw [abs_div, le_div_iff₀ b1]; linarith
  have er := rnd_err_rel (f := f) (q := a / b) (by linarith)
  have oo : overflows f (rnd f (a / b)) = false := by
    rw [overflows_false_iff]
    right
    have := abs_add_le (rnd f (a / b) - a / b) (a / b)
    rw [sub_add_cancel] at this
    nlinarith
  obtain ⟨e, nb1, nb, nd, dd⟩ := sc_fmod hf hx hy hb hab ha oo
  refine ⟨_, _, e, by rw [← ue]; exact nd, ?_, ?_⟩
  · rw [← ue]
    generalize (towardZero (rnd f (a / b)) : ℚ) * b = P at *
    have e1 := rnd_err_rel (f := f) nb1
    have e2 : |rnd f (a - rnd f P) - (a - rnd f P)| ≤ uro f * |a| := by
      rcases lt_or_ge |a - rnd f P| (minNormal f) with g | g
      · rw [show rnd f (a - rnd f P) = a - rnd f P from sc_sub_rep hf hx.rep (rep_rnd f P) g, sub_self, abs_zero]
        positivity
      · exact (rnd_err_rel g).trans (mul_le_mul_of_nonneg_left dd hu.le)
    have : rnd f (a - rnd f P) - (a - P) = (rnd f (a - rnd f P) - (a - rnd f P)) - (rnd f P - P) := by ring
    rw [this]
    refine (abs_sub _ _).trans ?_
    have h1 : uro f * |P| ≤ uro f * (2 * |a|) := mul_le_mul_of_nonneg_left (nb.trans (by have := abs_nonneg a; nlinarith)) hu.le
    linarith
  · have ra : Rep f |a| := by
      rcases abs_choice a with g | g <;> rw [g]
      · exact hx.rep
      · exact hx.rep.neg
    rcases abs_le.1 dd with ⟨l, u⟩
    rw [abs_le]
    exact ⟨le_rnd_of_rep ra.neg l, rnd_le_of_rep ra u⟩

/-- C97: `fmod(s x, s y) == s fmod(x, y)`, bit for bit, for every power of two `s >= 1`, normal `y`, `|y| <= |x|`, and
`2 s x` and `x/y` in range. -/
theorem C97_fmod (hf : f.exact = false) (a b : ℚ) (za zb : Bool) (k : ℕ) (hx : Valid (fin a za : FV f)) (hy : Valid (fin b zb : FV f))
    (hb : minNormal f ≤ |b|) (hab : |b| ≤ |a|) (ha : 2 * (pow2 k * |a|) < pow2 f.emax) (ho : 2 * |a / b| < pow2 f.emax) :
    fmod (fin (pow2 k * a) za : FV f) (fin (pow2 k * b) zb) = (fmod (fin a za : FV f) (fin b zb)).map (fin (pow2 k) false * ·) := by
  have m0 := minNormal_pos f
  have m1 := minNormal_lt_one f
  have hu := uro_pos f
  have hu1 := uro_lt_half f
  have pk := pow2_pos (k:ℤ)
  have k1 : (1:ℚ) ≤ pow2 k := by rw [pow2_nat]; exact one_le_pow₀ (by norm_num)
  have b1 : 0 < |b| := by linarith
  have a1 : 0 < |a| := by linarith
  have q1 : 1 ≤ |a / b| := by rw [abs_div, le_div_iff₀ b1]; linarith
  have er := rnd_err_rel (f := f) (q := a / b) (by linarith)
  have oo : overflows f (rnd f (a / b)) = false := by
    rw [overflows_false_iff]
    right
    have := abs_add_le (rnd f (a / b) - a / b) (a / b)
    rw [sub_add_cancel] at this
    nlinarith
  have sv : ∀ (c : ℚ) (v : Bool), Valid (fin c v : FV f) → c ≠ 0 → |c| ≤ |a| → Valid (fin (pow2 k * c) v : FV f) := fun c v hv h0 hc => by
    have : (fin (pow2 k) false : FV f) * fin c v = fin (pow2 k * c) v := by
      rw [fin_mul_rep (sc_rep hf k hv.rep) (overflows_false_iff.2 (Or.inr (by
        rw [abs_mul, abs_of_pos pk]
        have := mul_le_mul_of_nonneg_left hc pk.le
        have := mul_pos pk a1
        linarith))), hv.z_false h0]
      simp [h0, pk.ne']
    rw [← this]; exact valid_mul _ _
  have a0 : a ≠ 0 := abs_pos.1 a1
  have b0 : b ≠ 0 := abs_pos.1 b1
  obtain ⟨e, nb1, nb, nd, dd⟩ := sc_fmod hf hx hy hb hab (by nlinarith) oo
  have qe : pow2 k * a / (pow2 k * b) = a / b := mul_div_mul_left _ _ pk.ne'
  have sa : |pow2 k * a| = pow2 k * |a| := by rw [abs_mul, abs_of_pos pk]
  obtain ⟨e', -, -, -, -⟩ := sc_fmod hf (sv a za hx a0 le_rfl) (sv b zb hy b0 hab) (sc_norm k hb) (by
    rw [sa, abs_mul, abs_of_pos pk]; exact mul_le_mul_of_nonneg_left hab pk.le) (by rw [sa]; exact ha) (by rw [qe]; exact oo)
  rw [e, e', qe]
  refine congrArg Except.ok ?_
  have r1 : rnd f (towardZero (rnd f (a / b)) * (pow2 k * b)) = pow2 k * rnd f (towardZero (rnd f (a / b)) * b) := by
    rw [← sc_rnd hf k nb1]; congr 1; ring
  rw [r1, ← mul_sub]
  generalize (towardZero (rnd f (a / b)) : ℚ) * b = P at *
  have r2 : rnd f (pow2 k * (a - rnd f P)) = pow2 k * rnd f (a - rnd f P) := by
    rcases lt_or_ge |a - rnd f P| (minNormal f) with g | g
    · have h1 := sc_sub_rep hf hx.rep (rep_rnd f P) g
      rw [show rnd f (a - rnd f P) = a - rnd f P from h1]
      exact sc_rep hf k h1
    · exact sc_rnd hf k g
  rw [r2]
  have h2 : Rep f (pow2 k * rnd f (a - rnd f P)) := sc_rep hf k (rep_rnd _ _)
  have h3 : |rnd f (a - rnd f P)| ≤ |a| := by
    have ra : Rep f |a| := by
      rcases abs_choice a with g | g <;> rw [g]
      · exact hx.rep
      · exact hx.rep.neg
    rcases abs_le.1 dd with ⟨l, u⟩
    rw [abs_le]
    exact ⟨le_rnd_of_rep ra.neg l, rnd_le_of_rep ra u⟩
  have h4 : overflows f (pow2 k * rnd f (a - rnd f P)) = false := overflows_false_iff.2 (Or.inr (by
    rw [abs_mul, abs_of_pos pk]
    have := mul_le_mul_of_nonneg_left h3 pk.le
    have := mul_pos pk a1
    linarith))
  change fin (pow2 k * rnd f (a - rnd f P)) false = fin (pow2 k) false * fin (rnd f (a - rnd f P)) false
  rw [fin_mul_rep h2 h4]
  congr 1
  by_cases h : rnd f (a - rnd f P) = 0
  · simp [h, sign, pk.ne', pk.le]
  · simp [h, pk.ne']

/-! ## the hypotheses are met -/

example : hypot (fin (3 * 2 ^ 50) false : FV binary64) (fin (-7 * 2 ^ 50) false) = (hypot (fin 3 false : FV binary64) (fin (-7) false)).map (fin (2 ^ 50) false * ·) := by
  have := C97_hypot (f := binary64) rfl 3 (-7) false false 50 (by decide +kernel) (by decide +kernel) (by decide +kernel) (by decide +kernel) (by decide +kernel) (by decide +kernel)
  rw [pow2_nat] at this
  rw [show (3 * 2 ^ 50 : ℚ) = 2 ^ 50 * 3 by ring, show (-7 * 2 ^ 50 : ℚ) = 2 ^ 50 * -7 by ring]
  exact this

/-- scaling by 3 is not exact: `hypot(9, 15)` and `3 hypot(3, 5)` differ in the last bit -/
theorem C97_hypot_not_three : hypot (fin 9 false : FV binary64) (fin 15 false) = .ok (fin (4923801146407609/281474976710656) false) ∧
    (hypot (fin 3 false : FV binary64) (fin 5 false)).map (fin 3 false * ·) = .ok (fin (2461900573203805/140737488355328) false) := by
  constructor <;> decide +kernel

example : atan2 (fin (2 ^ 20 * 5) false : FV binary32) (fin (2 ^ 20 * -3) false) = atan2 (fin 5 false : FV binary32) (fin (-3) false) := by
  have := C97_atan2 (f := binary32) (-3) 5 false false 20 (by decide +kernel) (by decide +kernel) (by decide +kernel)
  rw [pow2_nat] at this
  exact this

example : ∃ (r : ℚ) (n : ℤ), fmod (fin 1000001 false : FV binary32) (fin (13421773 / 134217728) false) = .ok (fin r false) ∧
    |(n:ℚ) - 1000001 / (13421773 / 134217728)| ≤ 1 + 1 / 2 ^ 24 * |1000001 / (13421773 / 134217728)| ∧
    |r - (1000001 - n * (13421773 / 134217728))| ≤ 3 * (1 / 2 ^ 24) * |1000001| ∧ |r| ≤ |1000001| :=
  C97_fmod_error (f := binary32) rfl 1000001 (13421773 / 134217728) false false (by decide +kernel) (by decide +kernel) (by decide +kernel)
    (by decide +kernel) (by decide +kernel) (by decide +kernel)

example : fmod (fin (2 ^ 10 * (15 / 2)) false : FV binary32) (fin (2 ^ 10 * -2) false) = (fmod (fin (15 / 2) false : FV binary32) (fin (-2) false)).map (fin (2 ^ 10) false * ·) := by
  have := C97_fmod (f := binary32) rfl (15 / 2) (-2) false false 10 (by decide +kernel) (by decide +kernel) (by decide +kernel) (by decide +kernel)
    (by decide +kernel) (by decide +kernel)
  rw [pow2_nat] at this
  exact this

end Gcem.Props
