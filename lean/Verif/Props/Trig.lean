import Verif.Props.Pow
import Verif.Props.Rounding
import Verif.Model.Trig

/-!
# C41, C42: sin, cos and tan — symmetries, totality and range
-/

namespace Gcem.Props
open Gcem FV
variable {f : Fmt}

/-- Both calls have the same outcome, up to the sign of a zero. -/
def SameRes (r s : Res (FV f)) : Prop :=
  match r, s with
  | .ok a, .ok b => a ≃ b
  | .error u, .error v => u = v
  | _, _ => False

theorem SameRes.of_eq {r s : Res (FV f)} (h : r = s) : SameRes r s := by
  subst h; cases r <;> simp [SameRes]; rfl

/-! ## totality -/

theorem tan_begin_total (hf : f.exact = false) (n : ℕ) (x : FV f) : ∃ r, tan_begin n x = .ok r := by
  induction n generalizing x with
  | zero =>
    unfold tan_begin; split <;> exact ⟨_, rfl⟩
  | succ n ih =>
    unfold tan_begin
    split
    · obtain ⟨r, hr⟩ := (C20_total hf (x / L PI) (valid_div _ _)).1
      have : floor_check (x / L PI) = .ok r := hr
      simp only [this, bind, Except.bind]
      exact ih _
    · exact ⟨_, rfl⟩

theorem tan_total (hf : f.exact = false) (x : FV f) : ∃ r, tan x = .ok r := by
  unfold tan tan_check
  split
  · exact ⟨_, rfl⟩
  split
  · exact ⟨_, rfl⟩
  split
  · obtain ⟨r, hr⟩ := tan_begin_total hf 2 (-x)
    rw [hr]; exact ⟨_, rfl⟩
  · exact tan_begin_total hf 2 x

/-- C41: `tan`, `sin` and `cos` have no undefined behaviour for any argument. -/
theorem C41_total (hf : f.exact = false) (x : FV f) :
    (∃ r, tan x = .ok r) ∧ (∃ r, sin x = .ok r) ∧ (∃ r, cos x = .ok r) := by
  refine ⟨tan_total hf x, ?_, ?_⟩
  · unfold sin sin_check
    obtain ⟨t, ht⟩ := tan_total hf (x / i 2)
    simp only [ht, bind, Except.bind]
    split_ifs <;> exact ⟨_, rfl⟩
  · unfold cos cos_check
    obtain ⟨t, ht⟩ := tan_total hf (x / i 2)
    simp only [ht, bind, Except.bind]
    split_ifs <;> exact ⟨_, rfl⟩

/-! ## symmetry of tan -/

theorem tan_tiny {q : ℚ} {z : Bool} (h : |q| < minNormal f) : tan (fin q z : FV f) = .ok (fin 0 false) := by
  unfold tan tan_check
  rw [if_neg (by simp), if_pos (limMin_gt_fabs.2 h), i_zero]

theorem tan_nan : tan (nan : FV f) = .ok nan := by simp [tan, tan_check, limNaN]

theorem tan_neg_of {x : FV f} (h : x < i 0) (ht : ¬ (limMin : FV f) > fabs x) :
    tan x = (tan (-x)).map Neg.neg := by
  have hn : x ≠ nan := by rintro rfl; exact nan_lt h
  have hn' : -x ≠ nan := by intro hc; apply hn; rw [← neg_neg' x, hc]; rfl
  have hp : ¬ -x < i 0 := by
    rw [i_zero] at h ⊢
    cases x with
    | nan => exact absurd rfl hn
    | inf s => cases s <;> simp at h ⊢
    | fin q z => rw [fin_lt] at h; rw [neg_fin, fin_lt]; linarith
  unfold tan tan_check
  rw [if_neg (by rw [is_nan_iff]; exact hn), if_neg ht, if_pos h,
    if_neg (by rw [is_nan_iff]; exact hn'), if_neg (by rw [fabs_neg]; exact ht), if_neg hp]
  cases tan_begin 2 (-x) <;> rfl

/-- bit-exact oddness for everything but tiny arguments -/
theorem tan_odd {x : FV f} (ht : ¬ (limMin : FV f) > fabs x) : tan (-x) = (tan x).map Neg.neg := by
  have key : ∀ r : Res (FV f), (r.map Neg.neg).map Neg.neg = r := by
    intro r; cases r with
    | error u => rfl
    | ok a => simp [Except.map]
  by_cases h : x < i 0
  · rw [tan_neg_of h ht, key]
  · by_cases h2 : -x < i 0
    · have := tan_neg_of h2 (by rw [fabs_neg]; exact ht)
      rw [neg_neg'] at this; exact this
    · cases x with
      | nan => rw [neg_nan, tan_nan]; rfl
      | inf s => rw [i_zero] at h h2; cases s <;> simp at h h2
      | fin q z =>
        rw [i_zero] at h h2
        rw [neg_fin, fin_lt] at h2; rw [fin_lt] at h
        exfalso; apply ht
        rw [limMin_gt_fabs, show q = 0 by linarith, abs_zero]; exact minNormal_pos f

theorem tan_odd_same (x : FV f) : SameRes (tan (-x)) ((tan x).map Neg.neg) := by
  by_cases ht : (limMin : FV f) > fabs x
  · cases x with
    | nan => rw [neg_nan, tan_nan]; exact SameRes.of_eq rfl
    | inf s => rw [fabs_inf] at ht; exact absurd ht (by simp [limMin])
    | fin q z =>
      have h := limMin_gt_fabs.1 ht
      rw [neg_fin, tan_tiny h, tan_tiny (by rw [abs_neg]; exact h)]
      simp [SameRes, Except.map, neg_fin, Same]
  · exact SameRes.of_eq (tan_odd ht)

/-! ## symmetry of sin and cos -/

theorem tiny_same {a b : FV f} (h : a ≃ b) : ((limMin : FV f) > fabs a) ↔ ((limMin : FV f) > fabs b) := by
  cases a <;> cases b <;> simp [Same] at h
  · rfl
  · subst h; rfl
  · subst h; rw [limMin_gt_fabs, limMin_gt_fabs]

theorem tiny_neg_sub (x c : FV f) : ((limMin : FV f) > fabs (-x - c)) ↔ ((limMin : FV f) > fabs (x + c)) := by
  rw [tiny_same (sub_eq_add_neg' (-x) c ▸ neg_add_same x c), fabs_neg]

theorem sub_eq_add_neg'' (x y : FV f) : x - y = x + -y := rfl

theorem tiny_neg_add (x c : FV f) : ((limMin : FV f) > fabs (-x + c)) ↔ ((limMin : FV f) > fabs (x - c)) := by
  have h : -x + c ≃ -(x - c) := by
    rw [add_comm', ← sub_eq_add_neg'' c x]
    exact (neg_sub_same x c).symm
  rw [tiny_same h, fabs_neg]

/-- a constant between two integers -/
theorem L_bounds {q : ℚ} {a b : ℤ} (h1 : a ≤ q) (h2 : q ≤ b) (ha : 0 < a) (hb : b ≤ 16777216) :
    ∃ c, (L q : FV f) = fin c false ∧ a ≤ c ∧ c ≤ b := by
  have hab : (a:ℚ) ≤ b := h1.trans h2
  have hab' : a ≤ b := by exact_mod_cast hab
  have ra : ∀ g : Fmt, Rep g (a:ℚ) := fun g => rep_int (by
    have := two_pow_prec g; rw [abs_of_pos ha]; omega)
  have rb : ∀ g : Fmt, Rep g (b:ℚ) := fun g => rep_int (by
    have := two_pow_prec g; rw [abs_of_pos (by omega)]; omega)
  have hb' : (b:ℚ) ≤ 16777216 := by exact_mod_cast hb
  have ha' : (0:ℚ) < a := by exact_mod_cast ha
  have a1 := le_rnd_of_rep (ra f.ldbl) h1
  have b1 := rnd_le_of_rep (rb f.ldbl) h2
  have a2 := le_rnd_of_rep (ra f) a1
  have b2 := rnd_le_of_rep (rb f) b1
  have hi : Is (L q : FV f) (rnd f (rnd f.ldbl q)) := by
    refine is_mk ?_
    · exact nov_small (by rw [abs_of_pos (by linarith)]; linarith)
  obtain ⟨z, hz⟩ := hi
  refine ⟨_, ?_, a2, b2⟩
  have hv := valid_L (f := f) q
  rw [hz] at hv ⊢
  rw [hv.z_false (by linarith)]

theorem tiny_mk {q : ℚ} {zs : Bool} (h : (limMin : FV f) > fabs (mk f q zs)) : |rnd f q| < minNormal f := by
  unfold mk at h
  dsimp only at h
  split at h
  · rw [fabs_inf] at h; exact absurd h (by simp [limMin])
  · exact limMin_gt_fabs.1 h

theorem not_both {x : FV f} {c : ℚ} {w : Bool} (hc : 1 ≤ c) (h1 : (limMin : FV f) > fabs (x - fin c w))
    (h2 : (limMin : FV f) > fabs (x + fin c w)) : False := by
  have hm := minNormal_lt_one f
  cases x with
  | nan => rw [nan_sub, fabs_nan] at h1; rw [gt_iff] at h1; exact absurd h1 nan_lt
  | inf s =>
    rw [show (inf s : FV f) + fin c w = inf s from rfl, fabs_inf] at h2
    exact absurd h2 (by simp [limMin])
  | fin q z =>
    rw [fin_sub] at h1; rw [fin_add] at h2
    have h1 := abs_lt.1 (tiny_mk h1)
    have h2 := abs_lt.1 (tiny_mk h2)
    rcases le_total 0 q with h | h
    · have := le_rnd_of_rep (f := f) (q := q + c) rep_one (by linarith)
      linarith
    · have := rnd_le_of_rep (f := f) (q := q - c) rep_one.neg (by linarith)
      linarith

theorem half_neg (x : FV f) : -x / i 2 = -(x / i 2) := neg_div' x (i 2)

theorem sin_compute_neg (t : FV f) : sin_compute (-t) = -sin_compute t := by
  unfold sin_compute; rw [neg_mul_neg', mul_neg', neg_div']

theorem cos_compute_neg (t : FV f) : cos_compute (-t) = cos_compute t := by
  unfold cos_compute; rw [neg_mul_neg']

/-! ## sin and cos as case tables -/

theorem sin_def (x : FV f) : sin x =
    if is_nan x then .ok nan else if limMin > fabs x then .ok (i 0)
    else if limMin > fabs (x - L HALF_PI) then .ok (i 1) else if limMin > fabs (x + L HALF_PI) then .ok (-i 1)
    else if limMin > fabs (x - L PI) then .ok (i 0) else if limMin > fabs (x + L PI) then .ok (-i 0)
    else (tan (x / i 2)).map sin_compute := by
  unfold sin sin_check
  cases tan (x / i 2) <;> rfl

theorem cos_def (x : FV f) : cos x =
    if is_nan x then .ok nan else if limMin > fabs x then .ok (i 1)
    else if limMin > fabs (x - L HALF_PI) then .ok (i 0) else if limMin > fabs (x + L HALF_PI) then .ok (i 0)
    else if limMin > fabs (x - L PI) then .ok (-i 1) else if limMin > fabs (x + L PI) then .ok (-i 1)
    else (tan (x / i 2)).map cos_compute := by
  unfold cos cos_check
  cases tan (x / i 2) <;> rfl

theorem is_nan_neg (x : FV f) : is_nan (-x) = is_nan x := by cases x <;> simp [neg_fin]

theorem map_map_neg (r : Res (FV f)) (g : FV f → FV f) (h : ∀ t, g (-t) = -g t) :
    (r.map Neg.neg).map g = (r.map g).map Neg.neg := by
  cases r with
  | error u => rfl
  | ok a => simp [Except.map, h]

theorem map_map_even (r : Res (FV f)) (g : FV f → FV f) (h : ∀ t, g (-t) = g t) :
    (r.map Neg.neg).map g = r.map g := by
  cases r with
  | error u => rfl
  | ok a => simp [Except.map, h]

theorem sin_compute_zero : sin_compute (fin 0 false : FV f) = fin 0 false := by
  unfold sin_compute
  have h1 : mk f 1 false = fin 1 false := by rw [mk_of_rep rep_one (nov' (q := 1) (by norm_num))]; simp
  rw [i_two, i_one, fin_mul, fin_mul, mul_zero, mul_zero, mk_zero, mk_zero, fin_add, add_zero]
  norm_num [sign, h1, fin_div]

theorem sin_neg_generic (x : FV f) :
    SameRes ((tan (-x / i 2)).map sin_compute) (((tan (x / i 2)).map sin_compute).map Neg.neg) := by
  rw [half_neg]
  by_cases ht : (limMin : FV f) > fabs (x / i 2)
  · cases hx : x / i 2 with
    | nan => rw [neg_nan, tan_nan]; exact SameRes.of_eq (by simp [Except.map, sin_compute])
    | inf s => rw [hx, fabs_inf] at ht; exact absurd ht (by simp [limMin])
    | fin q z =>
      rw [hx] at ht
      have h := limMin_gt_fabs.1 ht
      rw [neg_fin, tan_tiny h, tan_tiny (by rw [abs_neg]; exact h)]
      simp only [SameRes, Except.map, sin_compute_zero, neg_fin, Same]; norm_num
  · rw [tan_odd ht, map_map_neg _ _ sin_compute_neg]
    exact SameRes.of_eq rfl

theorem cos_neg_generic (x : FV f) : (tan (-x / i 2)).map cos_compute = (tan (x / i 2)).map cos_compute := by
  rw [half_neg]
  by_cases ht : (limMin : FV f) > fabs (x / i 2)
  · cases hx : x / i 2 with
    | nan => rw [neg_nan]
    | inf s => rw [hx, fabs_inf] at ht; exact absurd ht (by simp [limMin])
    | fin q z =>
      rw [hx] at ht
      have h := limMin_gt_fabs.1 ht
      rw [neg_fin, tan_tiny h, tan_tiny (by rw [abs_neg]; exact h)]
  · rw [tan_odd ht, map_map_even _ _ cos_compute_neg]

theorem HALF_PI_val : ∃ c, (L HALF_PI : FV f) = fin c false ∧ 1 ≤ c ∧ c ≤ 2 := by
  obtain ⟨c, h, a, b⟩ := L_bounds (f := f) (q := HALF_PI) (a := 1) (b := 2) (by norm_num [HALF_PI])
    (by norm_num [HALF_PI]) (by norm_num) (by norm_num)
  exact ⟨c, h, by simpa using a, by simpa using b⟩

theorem PI_val : ∃ c, (L PI : FV f) = fin c false ∧ 3 ≤ c ∧ c ≤ 4 := by
  obtain ⟨c, h, a, b⟩ := L_bounds (f := f) (q := PI) (a := 3) (b := 4) (by norm_num [PI])
    (by norm_num [PI]) (by norm_num) (by norm_num)
  exact ⟨c, h, by simpa using a, by simpa using b⟩

/-- C41: `tan` and `sin` are odd and `cos` is even, for every value, up to the sign of a zero result. -/
theorem C41_symmetry (x : FV f) :
    SameRes (tan (-x)) ((tan x).map Neg.neg) ∧ SameRes (sin (-x)) ((sin x).map Neg.neg) ∧ cos (-x) = cos x := by
  refine ⟨tan_odd_same x, ?_, ?_⟩
  · rw [sin_def (-x), sin_def x, is_nan_neg, fabs_neg]
    obtain ⟨c, hc, c1, -⟩ := HALF_PI_val (f := f)
    obtain ⟨e, he, e1, -⟩ := PI_val (f := f)
    rw [hc, he]
    simp only [tiny_neg_sub, tiny_neg_add]
    by_cases h1 : is_nan x = true
    · rw [if_pos h1, if_pos h1]; exact SameRes.of_eq rfl
    rw [if_neg h1, if_neg h1]
    by_cases h2 : (limMin : FV f) > fabs x
    · rw [if_pos h2, if_pos h2]; simp [SameRes, Except.map, neg_fin, Same]
    rw [if_neg h2, if_neg h2]
    by_cases h3 : (limMin : FV f) > fabs (x - fin c false)
    · have h4 : ¬ (limMin : FV f) > fabs (x + fin c false) := fun h4 => not_both c1 h3 h4
      rw [if_pos h3, if_neg h4, if_pos h3]; exact SameRes.of_eq rfl
    rw [if_neg h3, if_neg h3]
    by_cases h4 : (limMin : FV f) > fabs (x + fin c false)
    · rw [if_pos h4, if_pos h4]; exact SameRes.of_eq (by simp [Except.map])
    rw [if_neg h4, if_neg h4]
    by_cases h5 : (limMin : FV f) > fabs (x - fin e false)
    · have h6 : ¬ (limMin : FV f) > fabs (x + fin e false) := fun h6 => not_both (by linarith) h5 h6
      rw [if_pos h5, if_neg h6, if_pos h5]; exact SameRes.of_eq rfl
    rw [if_neg h5, if_neg h5]
    by_cases h6 : (limMin : FV f) > fabs (x + fin e false)
    · rw [if_pos h6, if_pos h6]; exact SameRes.of_eq (by simp [Except.map])
    rw [if_neg h6, if_neg h6]
    exact sin_neg_generic x
  · rw [cos_def (-x), cos_def x, is_nan_neg, fabs_neg, cos_neg_generic]
    simp only [tiny_neg_sub, tiny_neg_add]
    split_ifs <;> rfl

/-- C41: bit-exact oddness, including signed zeros, when neither the argument nor its half is tiny. -/
theorem C41_bit_exact (x : FV f) (h : ¬ (limMin : FV f) > fabs x) (h2 : ¬ (limMin : FV f) > fabs (x / i 2)) :
    tan (-x) = (tan x).map Neg.neg ∧ sin (-x) = (sin x).map Neg.neg := by
  refine ⟨tan_odd h, ?_⟩
  rw [sin_def (-x), sin_def x, is_nan_neg, fabs_neg, half_neg, tan_odd h2, map_map_neg _ _ sin_compute_neg]
  obtain ⟨c, hc, c1, -⟩ := HALF_PI_val (f := f)
  obtain ⟨e, he, e1, -⟩ := PI_val (f := f)
  rw [hc, he]
  simp only [tiny_neg_sub, tiny_neg_add]
  have k1 := not_both (f := f) (x := x) (w := false) c1
  have k2 := not_both (f := f) (x := x) (c := e) (w := false) (by linarith)
  split_ifs <;> first | rfl | (exfalso; tauto) | simp [Except.map]

theorem tan_inf (s : Bool) : tan (inf s : FV f) = .ok nan := by
  obtain ⟨e, he, e1, -⟩ := PI_val (f := f)
  have hd : (inf false : FV f) / fin e false = inf false := by
    show FV.div _ _ = _
    simp [FV.div, sign]; intro h; linarith
  have hm : (fin e false : FV f) * inf false = inf false := by
    show FV.mul _ _ = _
    have : ¬ e < 0 := by linarith
    have h0 : e ≠ 0 := by intro h; linarith
    simp [FV.mul, sign, this, h0]
  have hs : (inf false : FV f) - inf false = nan := rfl
  have h1 : tan_begin 2 (inf false : FV f) = .ok nan := by
    unfold tan_begin
    rw [he, if_pos (by rw [gt_iff]; simp), hd]
    show (floor_check (inf false : FV f)).bind _ = _
    rw [floor_check_inf]
    show tan_begin 1 _ = _
    rw [hm, hs]
    unfold tan_begin
    rw [he, if_neg (by rw [gt_iff]; simp)]
    simp [tan_cf_main]
  cases s
  · unfold tan tan_check
    rw [if_neg (by simp), if_neg (by rw [fabs_inf]; simp [limMin]), if_neg (by simp), h1]
  · unfold tan tan_check
    rw [if_neg (by simp), if_neg (by rw [fabs_inf]; simp [limMin]), if_pos (by simp)]
    show (tan_begin 2 (inf false : FV f)).bind _ = _
    rw [h1]; rfl

/-- C41: special values. -/
theorem C41_special (s : Bool) :
    tan (nan : FV f) = .ok nan ∧ sin (nan : FV f) = .ok nan ∧ cos (nan : FV f) = .ok nan ∧
    tan (inf s : FV f) = .ok nan ∧ sin (inf s : FV f) = .ok nan ∧ cos (inf s : FV f) = .ok nan ∧
    (∀ (q : ℚ) (z : Bool), |q| < minNormal f → tan (fin q z : FV f) = .ok (fin 0 false) ∧
      sin (fin q z : FV f) = .ok (fin 0 false) ∧ cos (fin q z : FV f) = .ok (fin 1 false)) := by
  have hh : (inf s : FV f) / fin 2 false = inf s := by
    show FV.div _ _ = _
    norm_num [FV.div, sign]
  have hL : ∀ q : ℚ, (∃ c, (L q : FV f) = fin c false ∧ 1 ≤ c) → ¬ (limMin : FV f) > fabs (inf s - L q) ∧
      ¬ (limMin : FV f) > fabs (inf s + L q) := by
    rintro q ⟨c, hc, -⟩
    rw [hc, show (inf s : FV f) - fin c false = inf s from rfl, show (inf s : FV f) + fin c false = inf s from rfl,
      fabs_inf]
    simp [limMin]
  obtain ⟨c, hc, c1, -⟩ := HALF_PI_val (f := f)
  obtain ⟨e, he, e1, -⟩ := PI_val (f := f)
  have a1 := hL HALF_PI ⟨c, hc, c1⟩
  have a2 := hL PI ⟨e, he, by linarith⟩
  have a3 : ¬ (limMin : FV f) > fabs (inf s) := by rw [fabs_inf]; simp [limMin]
  refine ⟨tan_nan, by simp [sin_def], by simp [cos_def], tan_inf s, ?_, ?_, fun q z h => ⟨tan_tiny h, ?_, ?_⟩⟩
  · rw [sin_def, if_neg (by simp), if_neg a3, if_neg a1.1, if_neg a1.2, if_neg a2.1, if_neg a2.2, i_two, hh, tan_inf]
    simp [Except.map, sin_compute]
  · rw [cos_def, if_neg (by simp), if_neg a3, if_neg a1.1, if_neg a1.2, if_neg a2.1, if_neg a2.2, i_two, hh, tan_inf]
    simp [Except.map, cos_compute]
  · rw [sin_def, if_neg (by simp), if_pos (limMin_gt_fabs.2 h), i_zero]
  · rw [cos_def, if_neg (by simp), if_pos (limMin_gt_fabs.2 h), i_one]

example : sin (fin 1 false : FV binary64) = .ok (fin (3789648413623927/4503599627370496) false) ∧
    cos (fin 1 false : FV binary64) = .ok (fin (1216652631687587/2251799813685248) false) ∧
    tan (fin (-1) false : FV binary64) = .ok (fin (-7013940848419749/4503599627370496) false) := by decide +kernel

/-- C41: the argument reduction keeps no accuracy for large arguments: `tan(1e22)` is `0`, so `sin(1e22)` is
`0` and `cos(1e22)` is `1` (the real values are `1.628…`, `-0.852…`, `0.523…`). -/
theorem C41_large_argument :
    tan (fin (10 ^ 22) false : FV binary64) = .ok (fin 0 false) ∧
    sin (fin (10 ^ 22) false : FV binary64) = .ok (fin 0 false) ∧
    cos (fin (10 ^ 22) false : FV binary64) = .ok (fin 1 false) := by decide +kernel

/-! ## C42 -/

theorem rep_of_grid {q : ℚ} {n e : ℤ} (hq : q = n * pow2 e) (he : f.emin ≤ e) (h : |q| ≤ pow2 (e + f.prec)) : Rep f q := by
  rw [hq]
  apply rep_of_scaled _ he
  have hp := pow2_pos e
  rw [hq, abs_mul, abs_of_pos hp, pow2_add, mul_comm, pow2_nat] at h
  have := le_of_mul_le_mul_left h hp
  exact_mod_cast this

theorem grid_of_rep (hf : f.exact = false) {t : ℚ} (h : Rep f t) {k : ℤ} (hk : pow2 k ≤ |t|) :
    ∃ n : ℤ, t = n * pow2 (k + 1 - f.prec) := by
  have h0 : t ≠ 0 := by rintro rfl; have := pow2_pos k; simp at hk; linarith
  obtain ⟨m, hm, -⟩ := rep_scaled hf h0 h
  have h1 : k ≤ ilog2 t := (le_ilog2_iff h0).2 hk
  obtain ⟨j, -, hj⟩ := pow2_mult (a := fexp f t) (b := k + 1 - f.prec) (by unfold fexp; omega)
  exact ⟨m * j, by rw [hm, hj]; push_cast; ring⟩

theorem emin_small (f : Fmt) : f.emin ≤ -(f.prec : ℤ) := by rcases f with ⟨⟨⟩, ⟨⟩⟩ <;> decide

/-- `2t - 1` is representable for representable `t` in `[1/2, 2]`. -/
theorem rep_two_sub_one (hf : f.exact = false) {t : ℚ} (h : Rep f t) (h1 : 1/2 ≤ t) (h2 : t ≤ 2) : Rep f (2 * t - 1) := by
  have hp := prec_pos f
  have hp3 : 3 ≤ f.prec := by rcases f with ⟨⟨⟩, ⟨⟩⟩ <;> decide
  have he := emin_small f
  have ht : |t| = t := abs_of_pos (by linarith)
  have p0 : pow2 0 = 1 := pow2_zero
  have p1 : pow2 1 = 2 := by norm_num [pow2_eq]
  have p2 : pow2 2 = 4 := by norm_num [pow2_eq]
  have pm : pow2 (-1) = 1/2 := by norm_num [pow2_eq]
  rcases lt_or_ge t 1 with h3 | h3
  · obtain ⟨n, hn⟩ := grid_of_rep hf h (k := -1) (by rw [ht, pm]; exact h1)
    have e1 : (1:ℚ) = 2 ^ f.prec * pow2 (-1 + 1 - f.prec) := by
      rw [← pow2_nat, ← pow2_add, show (f.prec : ℤ) + (-1 + 1 - f.prec) = 0 by ring, p0]
    refine rep_of_grid (n := 2 * n - 2 ^ f.prec) (e := -1 + 1 - f.prec) ?_ (by omega) ?_
    · rw [show ((2 * n - 2 ^ f.prec : ℤ) : ℚ) = 2 * n - 2 ^ f.prec by push_cast; rfl]
      rw [sub_mul, ← e1, mul_assoc, ← hn]
    · rw [show -1 + 1 - (f.prec : ℤ) + f.prec = 0 by ring, p0, abs_of_nonneg (by linarith)]; linarith
  rcases le_or_gt t (3/2) with h4 | h4
  · obtain ⟨n, hn⟩ := grid_of_rep hf h (k := 0) (by rw [ht, p0]; exact h3)
    have e1 : (1:ℚ) = 2 ^ (f.prec - 1) * pow2 (0 + 1 - f.prec) := by
      rw [← pow2_nat, ← pow2_add, show ((f.prec - 1 : ℕ) : ℤ) + (0 + 1 - f.prec) = 0 by omega, p0]
    refine rep_of_grid (n := 2 * n - 2 ^ (f.prec - 1)) (e := 0 + 1 - f.prec) ?_ (by omega) ?_
    · rw [show ((2 * n - 2 ^ (f.prec - 1) : ℤ) : ℚ) = 2 * n - 2 ^ (f.prec - 1) by push_cast; rfl]
      rw [sub_mul, ← e1, mul_assoc, ← hn]
    · rw [show 0 + 1 - (f.prec : ℤ) + f.prec = 1 by ring, p1, abs_of_nonneg (by linarith)]; linarith
  · obtain ⟨n, hn⟩ := grid_of_rep hf h (k := 0) (by rw [ht, p0]; exact h3)
    have e1 : (1:ℚ) = 2 ^ (f.prec - 2) * pow2 (1 + 1 - f.prec) := by
      rw [← pow2_nat, ← pow2_add, show ((f.prec - 2 : ℕ) : ℤ) + (1 + 1 - f.prec) = 0 by omega, p0]
    have e2 : pow2 (1 + 1 - f.prec) = 2 * pow2 (0 + 1 - f.prec) := by
      rw [← pow2_succ]; congr 1; ring
    refine rep_of_grid (n := n - 2 ^ (f.prec - 2)) (e := 1 + 1 - f.prec) ?_ (by omega) ?_
    · rw [show ((n - 2 ^ (f.prec - 2) : ℤ) : ℚ) = n - 2 ^ (f.prec - 2) by push_cast; rfl]
      rw [sub_mul, ← e1, e2]
      linear_combination 2 * hn
    · rw [show 1 + 1 - (f.prec : ℤ) + f.prec = 2 by ring, p2, abs_of_nonneg (by linarith)]; linarith

theorem rep_two_mul {t : ℚ} (h : Rep f t) : Rep f (2 * t) := by
  cases hf : f.exact
  swap
  · exact rep_of_exact hf _
  by_cases h0 : t = 0
  · rw [h0, mul_zero]; exact Rep.zero
  obtain ⟨m, hm, hb⟩ := rep_scaled hf h0 h
  rw [hm, show (2:ℚ) * (m * pow2 (fexp f t)) = m * pow2 (fexp f t + 1) by rw [pow2_succ]; ring]
  exact rep_of_scaled hb.le (by have := fexp_ge f t; omega)

theorem rep_abs {t : ℚ} (h : Rep f t) : Rep f |t| := by
  rcases abs_choice t with h1 | h1 <;> rw [h1]
  · exact h
  · exact h.neg

/-- `|2t| ≤ 1 + t²` survives rounding. -/
theorem two_le_rnd {t : ℚ} (ht : Rep f t) : 2 * |t| ≤ rnd f (1 + rnd f (t * t)) := by
  have ha := rep_abs ht
  rw [← abs_mul_abs_self t]
  set a := |t| with hadef
  have h0 : 0 ≤ a := abs_nonneg t
  cases hf : f.exact
  swap
  · rw [rnd_exact hf, rnd_exact hf]; nlinarith [sq_nonneg (a - 1)]
  have hs : 0 ≤ rnd f (a * a) := rnd_nonneg (mul_nonneg h0 h0)
  rcases le_total a (1/2) with h1 | h1
  · have := le_rnd_of_rep (f := f) (q := 1 + rnd f (a * a)) rep_one (by linarith)
    linarith
  apply le_rnd_of_rep (rep_two_mul ha)
  rcases le_total a 2 with h2 | h2
  · have := le_rnd_of_rep (q := a * a) (rep_two_sub_one hf ha h1 h2) (by nlinarith [sq_nonneg (a - 1)])
    linarith
  · have := le_rnd_of_rep (q := a * a) (rep_two_mul ha) (by nlinarith)
    linarith

/-- NaN or in `[-1,1]`. -/
def InUnit (v : FV f) : Prop := v = nan ∨ ∃ q z, v = fin q z ∧ -1 ≤ q ∧ q ≤ 1

theorem mk_cases (q : ℚ) (zs : Bool) : (overflows f (rnd f q) = true ∧ ∃ s, mk f q zs = inf s) ∨
    (overflows f (rnd f q) = false ∧ ∃ w, mk f q zs = fin (rnd f q) w) := by
  unfold mk
  dsimp only
  cases h : overflows f (rnd f q)
  · right; exact ⟨rfl, _, rfl⟩
  · left; exact ⟨rfl, _, rfl⟩

theorem inUnit_div {a b : ℚ} {za zb : Bool} (hb : 0 < b) (h : |a| ≤ b) : InUnit ((fin a za : FV f) / fin b zb) := by
  rw [fin_div hb.ne']
  have h1 : |a / b| ≤ 1 := by rw [abs_div, abs_of_pos hb, div_le_one hb]; exact h
  have h2 : |rnd f (a / b)| ≤ 1 := abs_rnd_le_of_rep rep_one h1
  rw [mk_fin (nov (by linarith [show (1:ℚ) ≤ 2 ^ 127 by norm_num]))]
  exact Or.inr ⟨_, _, rfl, (abs_le.1 h2).1, (abs_le.1 h2).2⟩

theorem div_inf_unit {a : ℚ} {za s : Bool} : InUnit ((fin a za : FV f) / inf s) :=
  Or.inr ⟨0, _, rfl, by norm_num, by norm_num⟩

theorem inf_div_inf' {s t : Bool} : (inf s : FV f) / inf t = nan := rfl

theorem overflows_mono {a b : ℚ} (h : |a| ≤ b) (ha : overflows f a = true) : overflows f b = true := by
  by_contra hc
  rw [Bool.not_eq_true] at hc
  rw [overflows_of_abs_le (h.trans (le_abs_self b)) hc] at ha
  exact absurd ha (by simp)

theorem sin_compute_unit {t : FV f} (ht : Valid t) : InUnit (sin_compute t) := by
  unfold sin_compute
  rw [i_two, i_one]
  cases t with
  | nan => left; simp
  | inf s =>
    left
    have h1 : (fin 2 false : FV f) * inf s = inf s := by
      show FV.mul _ _ = _
      norm_num [FV.mul, sign]
    have h2 : (inf s : FV f) * inf s = inf false := by
      show FV.mul _ _ = _
      cases s <;> rfl
    rw [h1, h2]; rfl
  | fin q z =>
    rw [fin_mul, fin_mul]
    have hr2 : rnd f (2 * q) = 2 * q := rep_two_mul ht.rep
    have hD := two_le_rnd ht.rep
    have hs : 0 ≤ rnd f (q * q) := rnd_nonneg (mul_self_nonneg q)
    have hD1 := le_rnd_of_rep (f := f) (q := 1 + rnd f (q * q)) rep_one (by linarith)
    rcases mk_cases (f := f) (q * q) (sign (fin q z : FV f) != sign (fin q z : FV f)) with ⟨-, s, hS⟩ | ⟨hSo, w, hS⟩
    · rw [hS]
      rcases mk_cases (f := f) (2 * q) (sign (fin 2 false : FV f) != sign (fin q z : FV f)) with ⟨-, s', hN⟩ | ⟨-, w', hN⟩
      · rw [hN]; left; rfl
      · rw [hN]; exact div_inf_unit
    · rw [hS, fin_add]
      rcases mk_cases (f := f) (1 + rnd f (q * q)) (false && w)
        with ⟨-, s, hE⟩ | ⟨hEo, w1, hE⟩
      · rw [hE]
        rcases mk_cases (f := f) (2 * q) (sign (fin 2 false : FV f) != sign (fin q z : FV f)) with ⟨-, s', hN⟩ | ⟨-, w', hN⟩
        · rw [hN]; left; rfl
        · rw [hN]; exact div_inf_unit
      · rw [hE]
        rcases mk_cases (f := f) (2 * q) (sign (fin 2 false : FV f) != sign (fin q z : FV f)) with ⟨hNo, s', hN⟩ | ⟨-, w', hN⟩
        · exfalso
          rw [hr2] at hNo
          have := overflows_mono (b := rnd f (1 + rnd f (q * q))) (by rw [abs_mul, abs_two]; exact hD) hNo
          rw [this] at hEo; exact absurd hEo (by simp)
        · rw [hN, hr2]
          exact inUnit_div (by linarith) (by rw [abs_mul, abs_two]; exact hD)

theorem cos_compute_unit (t : FV f) : InUnit (cos_compute t) := by
  unfold cos_compute
  rw [i_one]
  cases hS : t * t with
  | nan => left; simp
  | inf s => left; rfl
  | fin q z =>
    have hq : 0 ≤ q := by
      cases t with
      | nan => rw [nan_mul] at hS; exact absurd hS (by simp)
      | inf s => cases s <;> exact absurd hS (by simp [show ∀ s, (inf s : FV f) * inf s = inf false from fun s => by
          show FV.mul _ _ = _
          cases s <;> rfl])
      | fin a w =>
        rw [fin_mul] at hS
        rcases mk_cases (f := f) (a * a) (sign (fin a w : FV f) != sign (fin a w : FV f)) with ⟨-, s, h⟩ | ⟨-, w', h⟩
        · rw [h] at hS; exact absurd hS (by simp)
        · rw [h] at hS
          injection hS with h1 h2
          rw [← h1]; exact rnd_nonneg (mul_self_nonneg a)
    rw [fin_sub, fin_add]
    have hD1 := le_rnd_of_rep (f := f) (q := 1 + q) rep_one (by linarith)
    have hle : |rnd f (1 - q)| ≤ rnd f (1 + q) := by
      rw [abs_rnd]; apply rnd_mono; rw [abs_le]; constructor <;> linarith
    rcases mk_cases (f := f) (1 + q) (false && z) with ⟨-, s, hE⟩ | ⟨hEo, w1, hE⟩
    · rw [hE]
      rcases mk_cases (f := f) (1 - q) (false && if q = 0 then !z else z) with ⟨-, s', hN⟩ | ⟨-, w', hN⟩
      · rw [hN]; left; rfl
      · rw [hN]; exact div_inf_unit
    · rw [hE]
      rcases mk_cases (f := f) (1 - q) (false && if q = 0 then !z else z) with ⟨hNo, s', hN⟩ | ⟨-, w', hN⟩
      · exfalso
        have := overflows_mono hle hNo
        rw [this] at hEo; exact absurd hEo (by simp)
      · rw [hN]; exact inUnit_div (by linarith) hle

theorem tan_cf_main_valid (x : FV f) : Valid (tan_cf_main x) := by
  unfold tan_cf_main tan_series_exp tan_series_exp_long
  split_ifs <;> first | exact valid_div _ _ | exact valid_add _ _ | exact valid_d _

theorem tan_begin_valid (n : ℕ) {x r : FV f} (h : tan_begin n x = .ok r) : Valid r := by
  induction n generalizing x with
  | zero =>
    unfold tan_begin at h
    split at h <;> (injection h with h; subst h)
    · trivial
    · exact tan_cf_main_valid x
  | succ n ih =>
    unfold tan_begin at h
    split at h
    · cases hc : floor_check (x / L PI) with
      | error u => simp [hc, bind, Except.bind] at h
      | ok v => simp only [hc, bind, Except.bind] at h; exact ih h
    · injection h with h; subst h; exact tan_cf_main_valid x

theorem tan_valid {x r : FV f} (h : tan x = .ok r) : Valid r := by
  unfold tan tan_check at h
  split at h
  · injection h with h; subst h; trivial
  split at h
  · injection h with h; subst h; exact valid_i 0
  split at h
  · cases hc : tan_begin 2 (-x) with
    | error u => simp [hc, bind, Except.bind] at h
    | ok v =>
      simp only [hc, bind, Except.bind, Except.ok.injEq] at h
      subst h; exact (tan_begin_valid 2 hc).neg
  · exact tan_begin_valid 2 h

/-- C42: `sin(x)` and `cos(x)`, as computed, are NaN or in `[-1,1]`, for every argument. -/
theorem C42_range (x r : FV f) : (sin x = .ok r → InUnit r) ∧ (cos x = .ok r → InUnit r) := by
  have h0 : InUnit (i 0 : FV f) := Or.inr ⟨0, _, i_zero, by norm_num, by norm_num⟩
  have h1 : InUnit (i 1 : FV f) := Or.inr ⟨1, _, i_one, by norm_num, by norm_num⟩
  have hm1 : InUnit (-i 1 : FV f) := Or.inr ⟨-1, _, by rw [i_one, neg_fin], by norm_num, by norm_num⟩
  have hm0 : InUnit (-i 0 : FV f) := Or.inr ⟨-0, _, by rw [i_zero, neg_fin], by norm_num, by norm_num⟩
  constructor
  · rw [sin_def]
    cases hT : tan (x / i 2) with
    | error u =>
      split_ifs <;> intro h <;> simp [Except.map] at h <;> subst h
      all_goals first | exact Or.inl rfl | simpa using h0 | simpa using h1 | simpa using hm1 | simpa using hm0
    | ok t =>
      have := sin_compute_unit (tan_valid hT)
      split_ifs <;> intro h <;> simp only [Except.map, Except.ok.injEq] at h <;> subst h
      all_goals first | exact Or.inl rfl | assumption
  · rw [cos_def]
    cases hT : tan (x / i 2) with
    | error u =>
      split_ifs <;> intro h <;> simp [Except.map] at h <;> subst h
      all_goals first | exact Or.inl rfl | simpa using h0 | simpa using h1 | simpa using hm1
    | ok t =>
      have := cos_compute_unit t
      split_ifs <;> intro h <;> simp only [Except.map, Except.ok.injEq] at h <;> subst h
      all_goals first | exact Or.inl rfl | assumption

/-- the bound is attained -/
example : sin (L HALF_PI : FV binary64) = .ok (fin 1 false) ∧ cos (L PI : FV binary64) = .ok (fin (-1) false) := by
  decide +kernel

end Gcem.Props
