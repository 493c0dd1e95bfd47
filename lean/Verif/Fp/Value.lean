import Verif.Fp.Round
import Verif.Model.Basic
import Mathlib.Tactic.Linarith
import Mathlib.Tactic.Positivity
import Mathlib.Tactic.NormNum

/-!
# Lemmas about floating-point values

Comparison, sign symmetry and commutativity of the operations of `Fp/Format.lean`, and the
behaviour of the classification helpers of `Model/Basic.lean`.
-/

namespace Gcem
open FV
variable {f : Fmt}

namespace FV

/-! ## Comparison -/

@[simp] theorem fin_lt {a b : ℚ} {za zb : Bool} : ((fin a za : FV f) < fin b zb) ↔ a < b := by
  change ltb _ _ = true ↔ _; simp [ltb]
@[simp] theorem fin_le {a b : ℚ} {za zb : Bool} : ((fin a za : FV f) ≤ fin b zb) ↔ a ≤ b := by
  change leb _ _ = true ↔ _; simp [leb]
@[simp] theorem fin_beq {a b : ℚ} {za zb : Bool} :
    ((fin a za : FV f) == fin b zb) = decide (a = b) := rfl
@[simp] theorem nan_lt {x : FV f} : ¬ ((nan : FV f) < x) := by
  change ¬ ltb _ _ = true; cases x <;> simp [ltb]
@[simp] theorem lt_nan {x : FV f} : ¬ (x < (nan : FV f)) := by
  change ¬ ltb _ _ = true; cases x <;> simp [ltb]
@[simp] theorem nan_le {x : FV f} : ¬ ((nan : FV f) ≤ x) := by
  change ¬ leb _ _ = true; cases x <;> simp [leb]
@[simp] theorem le_nan {x : FV f} : ¬ (x ≤ (nan : FV f)) := by
  change ¬ leb _ _ = true; cases x <;> simp [leb]
@[simp] theorem nan_beq {x : FV f} : ((nan : FV f) == x) = false := by
  change eqb _ _ = false; cases x <;> rfl
@[simp] theorem beq_nan {x : FV f} : (x == (nan : FV f)) = false := by
  change eqb _ _ = false; cases x <;> rfl
@[simp] theorem inf_beq_inf {s t : Bool} : ((inf s : FV f) == inf t) = (s == t) := rfl
@[simp] theorem inf_beq_fin {s : Bool} {q z} : ((inf s : FV f) == fin q z) = false := rfl
@[simp] theorem fin_beq_inf {s : Bool} {q z} : ((fin q z : FV f) == inf s) = false := rfl
@[simp] theorem inf_lt_inf {s t : Bool} : ((inf s : FV f) < inf t) ↔ (s = true ∧ t = false) := by
  change ltb _ _ = true ↔ _; simp [ltb]
@[simp] theorem inf_lt_fin {s : Bool} {q z} : ((inf s : FV f) < fin q z) ↔ s = true := by
  change ltb _ _ = true ↔ _; simp [ltb]
@[simp] theorem fin_lt_inf {s : Bool} {q z} : ((fin q z : FV f) < inf s) ↔ s = false := by
  change ltb _ _ = true ↔ _; simp [ltb]
@[simp] theorem inf_le_inf {s t : Bool} : ((inf s : FV f) ≤ inf t) ↔ (s = true ∨ t = false) := by
  change leb _ _ = true ↔ _; simp [leb]
@[simp] theorem inf_le_fin {s : Bool} {q z} : ((inf s : FV f) ≤ fin q z) ↔ s = true := by
  change leb _ _ = true ↔ _; simp [leb]
@[simp] theorem fin_le_inf {s : Bool} {q z} : ((fin q z : FV f) ≤ inf s) ↔ s = false := by
  change leb _ _ = true ↔ _; simp [leb]
theorem gt_iff {x y : FV f} : (x > y) ↔ (y < x) := Iff.rfl
theorem ge_iff {x y : FV f} : (x ≥ y) ↔ (y ≤ x) := Iff.rfl

/-! ## Rounded results -/

theorem overflows_false_iff {r : ℚ} :
    overflows f r = false ↔ (f.exact = true ∨ |r| < pow2 f.emax) := by
  unfold overflows
  cases f.exact <;> simp [abs_lt]
  exact And.comm

theorem overflows_neg (r : ℚ) : overflows f (-r) = overflows f r := by
  cases h : overflows f r
  · rw [overflows_false_iff] at *; rwa [abs_neg]
  · by_contra h2
    have h2 : overflows f (-r) = false := by simpa using h2
    rw [overflows_false_iff, abs_neg, ← overflows_false_iff] at h2
    simp [h] at h2

/-- No overflow: the result is the rounded value. -/
theorem mk_fin {q : ℚ} {zs : Bool} (h : overflows f (rnd f q) = false) :
    mk f q zs = fin (rnd f q) (decide (rnd f q = 0) && (decide (q < 0) || (decide (q = 0) && zs))) := by
  unfold mk; simp [h]

theorem mk_of_rep {q : ℚ} {zs : Bool} (hr : Rep f q) (ho : overflows f q = false) :
    mk f q zs = fin q (decide (q = 0) && zs) := by
  have hr' : rnd f q = q := hr
  rw [mk_fin (by rw [hr']; exact ho), hr']
  congr 1
  by_cases h : q = 0 <;> simp [h]

@[simp] theorem mk_zero (zs : Bool) : mk f 0 zs = fin 0 zs := by
  rw [mk_of_rep Rep.zero]
  · simp
  · rw [overflows_false_iff]; right; simpa using pow2_pos _

theorem mk_neg (q : ℚ) (zs : Bool) : mk f (-q) (!zs) = -(mk f q zs) := by
  by_cases hq : q = 0
  · subst hq; simp; rfl
  unfold mk
  simp only [rnd_neg, overflows_neg]
  split
  · change _ = inf _
    congr 1
    rcases lt_or_gt_of_ne hq with h | h
    · simp [h, not_lt.2 h.le]
    · simp [h, not_lt.2 h.le]
  · change _ = fin _ _
    congr 1
    rcases lt_or_gt_of_ne hq with h | h
    · by_cases hr : rnd f q = 0 <;> simp [hr, h, hq, not_lt.2 h.le]
    · by_cases hr : rnd f q = 0 <;> simp [hr, h, hq, not_lt.2 h.le]

/-- for a nonzero exact result the zero-sign argument is irrelevant -/
theorem mk_zs {q : ℚ} (hq : q ≠ 0) (a b : Bool) : mk f q a = mk f q b := by
  unfold mk; simp [hq]

/-! ## Negation -/

theorem neg_def (x : FV f) : -x = neg x := rfl
@[simp] theorem neg_nan : -(nan : FV f) = nan := rfl
@[simp] theorem neg_inf (s : Bool) : -(inf s : FV f) = inf (!s) := rfl
theorem neg_fin (q : ℚ) (z : Bool) : -(fin q z : FV f) = fin (-q) (if q = 0 then !z else z) := rfl
@[simp] theorem neg_neg' (x : FV f) : -(-x) = x := by
  cases x with
  | nan => rfl
  | inf s => simp
  | fin q z => rw [neg_fin, neg_fin]; by_cases h : q = 0 <;> simp [h]

theorem neg_inj' {x y : FV f} : -x = -y ↔ x = y := by
  constructor
  · intro h; rw [← neg_neg' x, h, neg_neg']
  · intro h; rw [h]

theorem sign_neg {x : FV f} (h : x ≠ nan) : sign (-x) = !sign x := by
  cases x with
  | nan => simp at h
  | inf s => rfl
  | fin q z =>
    rw [neg_fin]; unfold sign
    by_cases hq : q = 0
    · simp [hq]
    · rcases lt_or_gt_of_ne hq with h | h <;> simp [h, hq, h.le]

@[simp] theorem neg_lt_neg {x y : FV f} : (-x < -y) ↔ (y < x) := by
  cases x <;> cases y <;> simp [neg_fin]
  rename_i s t; cases s <;> cases t <;> simp
@[simp] theorem neg_le_neg' {x y : FV f} : (-x ≤ -y) ↔ (y ≤ x) := by
  cases x <;> cases y <;> simp [neg_fin]
  rename_i s t; cases s <;> cases t <;> simp
theorem neg_beq {x y : FV f} : (-x == -y) = (x == y) := by
  cases x <;> cases y <;> simp [neg_fin]

/-! ## Addition, subtraction -/

@[simp] theorem add_nan (x : FV f) : x + nan = nan := by
  change add _ _ = _; cases x <;> rfl
@[simp] theorem nan_add (x : FV f) : nan + x = nan := by
  change add _ _ = _; cases x <;> rfl
@[simp] theorem sub_nan (x : FV f) : x - nan = nan := by
  change add _ _ = _; cases x <;> rfl
@[simp] theorem nan_sub (x : FV f) : nan - x = nan := by
  cases x <;> rfl
@[simp] theorem mul_nan (x : FV f) : x * nan = nan := by
  change mul _ _ = _; cases x <;> rfl
@[simp] theorem nan_mul (x : FV f) : nan * x = nan := by
  change mul _ _ = _; cases x <;> rfl
@[simp] theorem div_nan (x : FV f) : x / nan = nan := by
  change div _ _ = _; cases x <;> rfl
@[simp] theorem nan_div (x : FV f) : nan / x = nan := by
  change div _ _ = _; cases x <;> rfl

theorem fin_add (a b : ℚ) (za zb : Bool) :
    (fin a za : FV f) + fin b zb = mk f (a + b) (za && zb) := rfl
theorem sub_eq_add_neg' (x y : FV f) : x - y = x + -y := rfl
theorem fin_sub (a b : ℚ) (za zb : Bool) :
    (fin a za : FV f) - fin b zb = mk f (a - b) (za && (if b = 0 then !zb else zb)) := by
  rw [sub_eq_add_neg', neg_fin, fin_add, sub_eq_add_neg]
theorem fin_mul (a b : ℚ) (za zb : Bool) :
    (fin a za : FV f) * fin b zb
      = mk f (a * b) (sign (fin a za : FV f) ^^ sign (fin b zb : FV f)) := rfl
theorem fin_div {b : ℚ} (hb : b ≠ 0) (a : ℚ) (za zb : Bool) :
    (fin a za : FV f) / fin b zb
      = mk f (a / b) (sign (fin a za : FV f) ^^ sign (fin b zb : FV f)) := by
  change div _ _ = _; unfold div; simp [hb]

theorem fin_div_fin (a b : ℚ) (za zb : Bool) :
    (fin a za : FV f) / fin b zb = if b = 0 then
        if a = 0 then nan else inf (sign (fin a za : FV f) ^^ sign (fin b zb : FV f))
      else mk f (a / b) (sign (fin a za : FV f) ^^ sign (fin b zb : FV f)) := rfl

theorem add_comm' (x y : FV f) : x + y = y + x := by
  cases x with
  | nan => simp
  | inf s =>
    cases y with
    | nan => simp
    | inf t => change (if s = t then inf s else nan) = (if t = s then inf t else nan)
               by_cases h : s = t
               · simp [h]
               · simp [h, Ne.symm h]
    | fin q z => rfl
  | fin q z =>
    cases y with
    | nan => simp
    | inf t => rfl
    | fin r w => rw [fin_add, fin_add, add_comm, Bool.and_comm]

theorem mul_comm' (x y : FV f) : x * y = y * x := by
  cases x with
  | nan => simp
  | inf s =>
    cases y with
    | nan => simp
    | inf t => change inf _ = inf _; rw [Bool.xor_comm]
    | fin q z => change (if q = 0 then nan else inf _) = (if q = 0 then nan else inf _)
                 rw [Bool.xor_comm]
  | fin q z =>
    cases y with
    | nan => simp
    | inf t => change (if q = 0 then nan else inf _) = (if q = 0 then nan else inf _)
               rw [Bool.xor_comm]
    | fin r w => rw [fin_mul, fin_mul, mul_comm, Bool.xor_comm]

theorem neg_mul' (x y : FV f) : (-x) * y = -(x * y) := by
  cases x with
  | nan => simp
  | inf s =>
    cases y with
    | nan => simp
    | inf t => change inf _ = inf _; cases s <;> cases t <;> rfl
    | fin q z =>
      change (if q = 0 then nan else inf _) = -(if q = 0 then nan else inf _)
      split <;> simp
  | fin q z =>
    cases y with
    | nan => simp
    | inf t =>
      rw [neg_fin]
      change (if -q = 0 then nan else inf _) = -(if q = 0 then nan else inf _)
      by_cases h : q = 0
      · simp [h]
      · have h2 := sign_neg (f := f) (x := fin q z) (by simp)
        rw [neg_fin] at h2
        simp only [h, neg_eq_zero, if_false, neg_inf] at *
        rw [h2]; cases sign (fin q z : FV f) <;> cases t <;> rfl
    | fin r w =>
      have h2 := sign_neg (f := f) (x := fin q z) (by simp)
      rw [neg_fin] at *
      rw [fin_mul, fin_mul, h2, neg_mul, ← mk_neg]
      cases sign (fin q z : FV f) <;> cases sign (fin r w : FV f) <;> rfl

theorem mul_neg' (x y : FV f) : x * (-y) = -(x * y) := by
  rw [mul_comm', neg_mul', mul_comm']

theorem neg_mul_neg' (x y : FV f) : (-x) * (-y) = x * y := by
  rw [neg_mul', mul_neg', neg_neg']

theorem neg_div' (x y : FV f) : (-x) / y = -(x / y) := by
  cases x with
  | nan => simp
  | inf s =>
    cases y with
    | nan => simp
    | inf t => rfl
    | fin q z => change inf _ = -inf _; simp
  | fin q z =>
    have h2 := sign_neg (f := f) (x := fin q z) (by simp)
    rw [neg_fin] at *
    cases y with
    | nan => simp
    | inf t =>
      change fin 0 _ = -(fin 0 _)
      rw [h2, neg_fin]; simp
    | fin r w =>
      rw [fin_div_fin, fin_div_fin, h2]
      by_cases hr : r = 0
      · by_cases hq : q = 0 <;> simp [hr, hq]
      · simp only [hr, if_false]
        rw [neg_div, ← mk_neg]
        cases sign (fin q z : FV f) <;> cases sign (fin r w : FV f) <;> rfl

theorem div_neg' (x y : FV f) : x / (-y) = -(x / y) := by
  cases x with
  | nan => simp
  | inf s =>
    cases y with
    | nan => simp
    | inf t => rfl
    | fin q z =>
      have h2 := sign_neg (f := f) (x := fin q z) (by simp)
      rw [neg_fin] at *
      change inf _ = -inf _; rw [h2]; simp
  | fin q z =>
    cases y with
    | nan => simp
    | inf t =>
      change fin 0 _ = -(fin 0 _)
      rw [neg_fin]; simp
    | fin r w =>
      have h2 := sign_neg (f := f) (x := fin r w) (by simp)
      rw [neg_fin] at *
      rw [fin_div_fin, fin_div_fin, h2]
      by_cases hr : r = 0
      · by_cases hq : q = 0 <;> simp [hr, hq]
      · simp only [hr, if_false, neg_eq_zero]
        rw [div_neg, ← mk_neg]
        cases sign (fin q z : FV f) <;> cases sign (fin r w : FV f) <;> rfl

theorem neg_div_neg' (x y : FV f) : (-x) / (-y) = x / y := by
  rw [neg_div', div_neg', neg_neg']

/-! ## Equality up to the sign of zero -/

/-- Same value, ignoring the sign of a zero. -/
def Same : FV f → FV f → Prop
  | nan, nan => True
  | inf s, inf t => s = t
  | fin a _, fin b _ => a = b
  | _, _ => False

@[inherit_doc] scoped infix:50 " ≃ " => Same

instance (x y : FV f) : Decidable (x ≃ y) := by
  cases x <;> cases y <;> unfold Same <;> infer_instance

@[refl] theorem Same.refl (x : FV f) : x ≃ x := by cases x <;> simp [Same]
theorem Same.of_eq {x y : FV f} (h : x = y) : x ≃ y := h ▸ Same.refl x
theorem Same.symm {x y : FV f} (h : x ≃ y) : y ≃ x := by
  cases x <;> cases y <;> simp_all [Same]
theorem Same.trans {x y z : FV f} (h : x ≃ y) (h2 : y ≃ z) : x ≃ z := by
  cases x <;> cases y <;> cases z <;> simp_all [Same]

theorem same_mk (q : ℚ) (a b : Bool) : mk f q a ≃ mk f q b := by
  by_cases h : q = 0
  · subst h; simp [Same]
  · rw [mk_zs h a b]

theorem Same.add {a b c e : FV f} (h1 : a ≃ b) (h2 : c ≃ e) : a + c ≃ b + e := by
  cases a <;> cases b <;> simp only [Same] at h1
  · simp [Same]
  · subst h1
    cases c <;> cases e <;> simp only [Same] at h2
    · simp [Same]
    · subst h2; exact Same.refl _
    · exact Same.refl _
  · subst h1
    cases c <;> cases e <;> simp only [Same] at h2
    · simp [Same]
    · subst h2; exact Same.refl _
    · subst h2; exact same_mk _ _ _

theorem Same.neg {a b : FV f} (h : a ≃ b) : -a ≃ -b := by
  cases a <;> cases b <;> simp_all [Same, neg_fin]

theorem Same.sub {a b c e : FV f} (h1 : a ≃ b) (h2 : c ≃ e) : a - c ≃ b - e :=
  h1.add h2.neg

theorem Same.mul {a b c e : FV f} (h1 : a ≃ b) (h2 : c ≃ e) : a * c ≃ b * e := by
  cases a <;> cases b <;> simp only [Same] at h1
  · simp [Same]
  · subst h1
    cases c <;> cases e <;> simp only [Same] at h2
    · simp [Same]
    · subst h2; exact Same.refl _
    · subst h2
      rename_i s q z w
      change (if q = 0 then FV.nan else FV.inf _) ≃ (if q = 0 then FV.nan else FV.inf _)
      by_cases h : q = 0 <;> simp [h, Same, sign]
  · subst h1
    cases c <;> cases e <;> simp only [Same] at h2
    · simp [Same]
    · subst h2
      rename_i q z w s
      change (if q = 0 then FV.nan else FV.inf _) ≃ (if q = 0 then FV.nan else FV.inf _)
      by_cases h : q = 0 <;> simp [h, Same, sign]
    · subst h2; exact same_mk _ _ _

theorem Same.lt_iff {a b c e : FV f} (h1 : a ≃ b) (h2 : c ≃ e) : (a < c) ↔ (b < e) := by
  cases a <;> cases b <;> simp only [Same] at h1 <;>
  cases c <;> cases e <;> simp only [Same] at h2 <;> simp_all
theorem Same.le_iff {a b c e : FV f} (h1 : a ≃ b) (h2 : c ≃ e) : (a ≤ c) ↔ (b ≤ e) := by
  cases a <;> cases b <;> simp only [Same] at h1 <;>
  cases c <;> cases e <;> simp only [Same] at h2 <;> simp_all
theorem Same.beq {a b c e : FV f} (h1 : a ≃ b) (h2 : c ≃ e) : (a == c) = (b == e) := by
  cases a <;> cases b <;> simp only [Same] at h1 <;>
  cases c <;> cases e <;> simp only [Same] at h2 <;> simp_all

theorem neg_add_same (x y : FV f) : -x + -y ≃ -(x + y) := by
  cases x with
  | nan => simp [Same]
  | inf s =>
    cases y with
    | nan => simp [Same]
    | inf t => cases s <;> cases t <;> exact Same.refl _
    | fin q z => exact Same.refl _
  | fin q z =>
    cases y with
    | nan => simp [Same]
    | inf t => exact Same.refl _
    | fin r w =>
      rw [neg_fin, neg_fin, fin_add, fin_add, ← mk_neg, ← neg_add]
      exact same_mk _ _ _

theorem neg_sub_same (x y : FV f) : -(x - y) ≃ y - x := by
  rw [sub_eq_add_neg', sub_eq_add_neg']
  refine (neg_add_same _ _).symm.trans ?_
  rw [neg_neg', add_comm']

/-! ## Literals and limits -/

theorem overflows_int {n : ℤ} (h : |n| ≤ 2 ^ f.prec) : overflows f n = false := by
  rw [overflows_false_iff]; right
  have h1 : (|n| : ℚ) ≤ 2 ^ f.prec := by exact_mod_cast h
  rw [← Int.cast_abs]
  have h2 : ((|n| : ℤ) : ℚ) ≤ pow2 f.prec := by rw [pow2_nat]; exact_mod_cast h
  refine lt_of_le_of_lt h2 (pow2_lt ?_)
  rcases f with ⟨⟨⟩, ⟨⟩⟩ <;> decide

theorem i_eq {n : ℤ} (h : |n| ≤ 2 ^ f.prec) : (i n : FV f) = fin n false := by
  unfold i; rw [mk_of_rep (rep_int h) (overflows_int h)]; simp

theorem two_pow_prec (f : Fmt) : (16777216 : ℤ) ≤ 2 ^ f.prec := by
  rcases f with ⟨⟨⟩, ⟨⟩⟩ <;> decide

/-- every small integer literal is exact -/
theorem i_small {n : ℤ} (h : |n| ≤ 16777216) : (i n : FV f) = fin n false :=
  i_eq (h.trans (two_pow_prec f))

@[simp] theorem i_zero : (i 0 : FV f) = fin 0 false := by simpa using i_small (f := f) (n := 0) (by decide)
@[simp] theorem i_one : (i 1 : FV f) = fin 1 false := by simpa using i_small (f := f) (n := 1) (by decide)
@[simp] theorem i_two : (i 2 : FV f) = fin 2 false := by simpa using i_small (f := f) (n := 2) (by decide)
@[simp] theorem i_neg_one : (i (-1) : FV f) = fin (-1) false := by
  simpa using i_small (f := f) (n := -1) (by decide)

theorem i_neg {n : ℤ} (hn : n ≠ 0) : (i (-n) : FV f) = -(i n) := by
  unfold i
  rw [← mk_neg]; push_cast
  exact mk_zs (by simpa using hn) _ _

theorem minNormal_pos (f : Fmt) : 0 < minNormal f := pow2_pos _
theorem minNormal_lt_one (f : Fmt) : minNormal f < 1 / 4 := by
  have : pow2 (f.emin + f.prec - 1) < pow2 (-2) := by
    apply pow2_lt; rcases f with ⟨⟨⟩, ⟨⟩⟩ <;> decide
  simpa [pow2_eq, minNormal, zpow_neg] using this.trans_le (by norm_num [pow2_eq])

theorem emax_large (f : Fmt) : (128 : ℤ) ≤ f.emax := by
  rcases f with ⟨⟨⟩, ⟨⟩⟩ <;> decide

theorem Valid.rep {q : ℚ} {z : Bool} (h : Valid (fin q z : FV f)) : Rep f q := h.1
theorem Valid.novf {q : ℚ} {z : Bool} (h : Valid (fin q z : FV f)) : overflows f q = false := h.2.1
theorem Valid.z {q : ℚ} {z : Bool} (h : Valid (fin q z : FV f)) : z = true → q = 0 := h.2.2
theorem Valid.z_false {q : ℚ} {z : Bool} (h : Valid (fin q z : FV f)) (hq : q ≠ 0) : z = false := by
  cases z
  · rfl
  · exact absurd (h.z rfl) hq
theorem Valid.eq_fin {q : ℚ} {z : Bool} (h : Valid (fin q z : FV f)) (hq : q ≠ 0) :
    (fin q z : FV f) = fin q false := by rw [h.z_false hq]

theorem valid_mk (q : ℚ) (zs : Bool) : Valid (mk f q zs) := by
  unfold mk
  dsimp only
  split
  · trivial
  · refine ⟨rnd_rnd f q, by simp_all, ?_⟩
    intro h; simp at h; exact h.1

theorem valid_zero (z : Bool) : Valid (fin 0 z : FV f) := by
  rw [← mk_zero]; exact valid_mk _ _

theorem Valid.neg {x : FV f} (h : Valid x) : Valid (-x) := by
  cases x with
  | nan => trivial
  | inf s => trivial
  | fin q z =>
    refine ⟨Rep.neg h.1, by rw [overflows_neg]; exact h.2.1, ?_⟩
    intro hz
    by_cases hq : q = 0
    · simp [hq]
    · simp only [hq, if_false] at hz; exact absurd (h.z hz) hq

theorem valid_neg_iff {x : FV f} : Valid (-x) ↔ Valid x :=
  ⟨fun h => by simpa using h.neg, Valid.neg⟩

theorem valid_add (x y : FV f) : Valid (x + y) := by
  change Valid (add x y)
  unfold add; split <;> first | trivial | (exact valid_mk _ _) | (split <;> trivial)

theorem valid_sub (x y : FV f) : Valid (x - y) := valid_add _ _
theorem valid_mul (x y : FV f) : Valid (x * y) := by
  change Valid (mul x y)
  unfold mul; split <;> first | trivial | (exact valid_mk _ _) | (split <;> trivial)
theorem valid_div (x y : FV f) : Valid (x / y) := by
  change Valid (div x y)
  unfold div; split <;> first | trivial | (exact valid_zero _) | skip
  split
  · split <;> trivial
  · exact valid_mk _ _
theorem valid_i (n : ℤ) : Valid (i n : FV f) := valid_mk _ _
theorem valid_d (q : ℚ) : Valid (d q : FV f) := valid_mk _ _
theorem valid_L (q : ℚ) : Valid (L q : FV f) := valid_mk _ _
theorem valid_cast {g : Fmt} (x : FV f) : Valid (cast g x) := by
  cases x <;> first | trivial | exact valid_mk _ _

theorem d_eq {q : ℚ} (h : Rep f.dbl q) (h2 : Rep f q) (ho : overflows f q = false) :
    (d q : FV f) = fin q false := by
  unfold d
  rw [show rnd f.dbl q = q from h, mk_of_rep h2 ho]; simp

theorem d_half : (d (1/2) : FV f) = fin (1/2) false := by
  have h : (1/2 : ℚ) = pow2 (-1) := by norm_num [pow2_eq]
  have hp : ∀ g : Fmt, Rep g (pow2 (-1)) := fun g => rep_pow2 (by rcases g with ⟨⟨⟩, ⟨⟩⟩ <;> decide)
  rw [h]
  refine d_eq (hp _) (hp _) ?_
  rw [overflows_false_iff, abs_of_pos (pow2_pos _)]
  exact Or.inr (pow2_lt (by have := emax_large f; omega))

end FV

/-! ## Classification helpers -/

@[simp] theorem is_nan_iff {x : FV f} : is_nan x = true ↔ x = nan := by
  unfold is_nan; cases x <;> simp
@[simp] theorem is_nan_fin {q z} : is_nan (fin q z : FV f) = false := by simp [is_nan]
@[simp] theorem is_nan_inf {s} : is_nan (inf s : FV f) = false := by simp [is_nan]
@[simp] theorem is_nan_nan : is_nan (nan : FV f) = true := by simp
@[simp] theorem is_posinf_fin {q z} : is_posinf (fin q z : FV f) = false := rfl
@[simp] theorem is_posinf_inf {s} : is_posinf (inf s : FV f) = !s := by cases s <;> rfl
@[simp] theorem is_posinf_nan : is_posinf (nan : FV f) = false := rfl
@[simp] theorem is_neginf_fin {q z} : is_neginf (fin q z : FV f) = false := rfl
@[simp] theorem is_neginf_inf {s} : is_neginf (inf s : FV f) = s := by cases s <;> rfl
@[simp] theorem is_neginf_nan : is_neginf (nan : FV f) = false := rfl
@[simp] theorem is_inf_fin {q z} : is_inf (fin q z : FV f) = false := rfl
@[simp] theorem is_inf_inf {s} : is_inf (inf s : FV f) = true := by cases s <;> rfl
@[simp] theorem is_inf_nan : is_inf (nan : FV f) = false := rfl
@[simp] theorem is_finite_fin {q z} : is_finite (fin q z : FV f) = true := by simp [is_finite]
@[simp] theorem is_finite_inf {s} : is_finite (inf s : FV f) = false := by simp [is_finite]
@[simp] theorem is_finite_nan : is_finite (nan : FV f) = false := by simp [is_finite]

@[simp] theorem fabs_nan : fabs (nan : FV f) = nan := by simp [fabs]
@[simp] theorem fabs_inf {s} : fabs (inf s : FV f) = inf false := by cases s <;> simp [fabs]
theorem fabs_fin_zero (z : Bool) : fabs (fin 0 z : FV f) = fin 0 false := by simp [fabs]
theorem fabs_fin_ne {q : ℚ} (z : Bool) (h : q ≠ 0) : fabs (fin q z : FV f) = fin |q| z := by
  unfold fabs
  simp only [i_zero, fin_beq, h, decide_false, fin_lt]
  by_cases h2 : q < 0
  · simp [h2, neg_fin, h, abs_of_neg h2]
  · simp [h2, abs_of_nonneg (not_lt.1 h2)]
theorem fabs_fin {q : ℚ} {z : Bool} (h : Valid (fin q z : FV f)) : fabs (fin q z : FV f) = fin |q| false := by
  by_cases hq : q = 0
  · subst hq; rw [fabs_fin_zero]; simp
  · rw [fabs_fin_ne z hq, h.z_false hq]
theorem fabs_fin' (q : ℚ) (z : Bool) : ∃ w, fabs (fin q z : FV f) = fin |q| w := by
  by_cases hq : q = 0
  · subst hq; exact ⟨false, by rw [fabs_fin_zero]; simp⟩
  · exact ⟨z, fabs_fin_ne z hq⟩
@[simp] theorem fabs_neg (x : FV f) : fabs (-x) = fabs x := by
  cases x with
  | nan => rfl
  | inf s => simp
  | fin q z =>
    rw [neg_fin]
    by_cases h : q = 0
    · subst h; simp [fabs_fin_zero]
    · rw [fabs_fin_ne _ h, fabs_fin_ne _ (neg_ne_zero.2 h)]; simp [h]
theorem valid_fabs {x : FV f} (h : Valid x) : Valid (fabs x) := by
  unfold fabs; split
  · exact valid_i _
  · split
    · exact h.neg
    · exact h

theorem limMin_gt_fabs {q : ℚ} {z : Bool} :
    ((limMin : FV f) > fabs (fin q z)) ↔ |q| < minNormal f := by
  obtain ⟨w, hw⟩ := fabs_fin' (f := f) q z
  rw [hw]; unfold limMin; change (fin _ _ < fin _ _) ↔ _; simp

@[simp] theorem limMin_gt_inf {s} : ¬ ((limMin : FV f) > inf s) ↔ s = false := by
  unfold limMin; change ¬ (_ < _) ↔ _; simp

@[simp] theorem sgn_fin {q : ℚ} {z : Bool} :
    sgn (fin q z : FV f) = if 0 < q then 1 else if q < 0 then -1 else 0 := by
  simp [sgn]
@[simp] theorem sgn_nan : sgn (nan : FV f) = 0 := by simp [sgn]
@[simp] theorem sgn_inf {s} : sgn (inf s : FV f) = if s then -1 else 1 := by cases s <;> simp [sgn]
theorem sgn_neg (x : FV f) : sgn (-x) = - sgn x := by
  cases x with
  | nan => simp
  | inf s => cases s <;> simp
  | fin q z =>
    rw [neg_fin]; simp only [sgn_fin]
    rcases lt_trichotomy q 0 with h | h | h
    · simp [h, not_lt.2 h.le]
    · simp [h]
    · simp [h, not_lt.2 h.le]

end Gcem
