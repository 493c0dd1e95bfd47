import Verif.Props.Erf

/-!
# C53–C55: gamma and beta functions — special values, recursion, undefined set, symmetry
-/

namespace Gcem.Props
open Gcem FV
variable {f : Fmt}

/-! ## lgamma -/

theorem lgamma_begin_total (hf : f.exact = false) (x : FV f) : ∃ r, lgamma_begin x = .ok r := by
  unfold lgamma_begin lgamma_term_1 lgamma_term_2
  obtain ⟨a, ha⟩ := C35_total hf (x + L 5.2421875) (valid_add _ _)
  obtain ⟨b, hb⟩ := C35_total hf (cast f (lgamma_coef_term (cast f.ldbl x))) (valid_cast _)
  rw [ha, hb]; exact ⟨_, rfl⟩

/-- C53: `lgamma` has no undefined behaviour for any argument. -/
theorem C53_lgamma_total (hf : f.exact = false) (x : FV f) : ∃ r, lgamma x = .ok r := by
  unfold lgamma lgamma_check
  obtain ⟨r, hr⟩ := lgamma_begin_total hf (x - i 1)
  rw [hr]
  split_ifs <;> exact ⟨_, rfl⟩

theorem not_tiny_inf (s : Bool) : ¬ (limMin : FV f) > fabs (inf s) := by rw [fabs_inf]; simp [limMin]

theorem inf_sub_fin (s : Bool) (q : ℚ) (z : Bool) : (inf s : FV f) - fin q z = inf s := rfl
theorem inf_add_fin (s : Bool) (q : ℚ) (z : Bool) : (inf s : FV f) + fin q z = inf s := rfl

theorem Lval {q : ℚ} (h1 : 1 ≤ q) (h2 : q ≤ 100) : ∃ c, (L q : FV f) = fin c false := by
  obtain ⟨c, h, -, -⟩ := L_bounds (f := f) (q := q) (a := 1) (b := 100) (by simpa using h1) (by simpa using h2)
    (by norm_num) (by norm_num)
  exact ⟨c, h⟩

theorem lgamma_one (z : Bool) : lgamma (fin 1 z : FV f) = .ok (fin 0 false) := by
  unfold lgamma lgamma_check
  rw [if_neg (by simp), if_pos, i_zero]
  rw [i_one, fin_sub, sub_self, mk_zero, limMin_gt_fabs, abs_zero]; exact minNormal_pos f

/-- C53: special values of `lgamma`.  Every argument below the least positive normal value gives `+inf`,
including the negative non-integers, where the logarithm of the gamma function is finite; at `+inf` the
result is NaN, not `+inf`. -/
theorem C53_lgamma_special (hf : f.exact = false) :
    lgamma (nan : FV f) = .ok nan ∧ (∀ z, lgamma (fin 1 z : FV f) = .ok (fin 0 false)) ∧
    (∀ x : FV f, x < limMin → lgamma x = .ok (inf false)) ∧ lgamma (inf false : FV f) = .ok nan := by
  refine ⟨by simp [lgamma, lgamma_check, limNaN], lgamma_one, ?_, ?_⟩
  · intro x h
    have hm := minNormal_lt_one f
    have hn : x ≠ nan := by rintro rfl; exact nan_lt h
    unfold lgamma lgamma_check
    rw [if_neg (by rw [is_nan_iff]; exact hn), if_neg, if_pos h]
    · rfl
    · cases x with
      | nan => exact absurd rfl hn
      | inf s => rw [i_one, inf_sub_fin]; exact not_tiny_inf s
      | fin q z =>
        rw [limMin, fin_lt] at h
        rw [i_one, fin_sub]
        intro hc
        have h1 := (abs_lt.1 (tiny_mk hc)).1
        have h2 : rnd f (q - 1) ≤ -(1/2) := rnd_le_of_rep (by
          have := rep_of_scaled (f := f) (m := -1) (e := -1) (by
            have := two_pow_prec f; simp; omega) (by rcases f with ⟨⟨⟩, ⟨⟩⟩ <;> decide)
          rwa [show ((-1 : ℤ) : ℚ) * pow2 (-1) = -(1/2) by norm_num [pow2_eq]] at this) (by linarith)
        linarith
  · unfold lgamma lgamma_check
    rw [if_neg (by simp), i_one, inf_sub_fin, if_neg (not_tiny_inf _), if_neg (by simp [limMin])]
    unfold lgamma_begin lgamma_term_1
    obtain ⟨c, hc⟩ := Lval (f := f) (q := 5.2421875) (by norm_num) (by norm_num)
    have ht2 : ∃ r, lgamma_term_2 (inf false : FV f) = .ok r := by
      unfold lgamma_term_2
      obtain ⟨b, hb⟩ := C35_total hf (cast f (lgamma_coef_term (cast f.ldbl (inf false : FV f)))) (valid_cast _)
      rw [hb]; exact ⟨_, rfl⟩
    obtain ⟨r, hr⟩ := ht2
    have hd : (d 0.5 : FV f) = fin (1/2) false := by
      rw [show (0.5 : ℚ) = 1/2 by norm_num]; exact d_half
    rw [hc, inf_add_fin, log_posinf, hr, hd, inf_add_fin]
    rfl

/-! ## tgamma -/

theorem valid_lgamma {x l : FV f} (h : lgamma x = .ok l) : Valid l := by
  unfold lgamma lgamma_check lgamma_begin at h
  split at h
  · injection h with h; rw [← h]; trivial
  split at h
  · injection h with h; rw [← h]; exact valid_i _
  split at h
  · injection h with h; rw [← h]; trivial
  simp only [bind, Except.bind] at h
  split at h
  · cases h
  split at h
  · cases h
  injection h with h; rw [← h]; exact valid_add _ _

theorem tg_unfold (n : ℕ) (x : FV f) : tgamma_check (n + 1) x =
    if is_nan x then .ok nan else if limMin > fabs (x - i 1) then .ok (i 1)
    else if limMin > fabs x then .ok (inf false)
    else if x < i 0 then
      (find_whole x).bind fun w => if limMin > fabs (x - i w) then .ok nan
        else (tgamma_check n (x + i 1)).bind fun r => .ok (r / x)
    else (lgamma x).bind fun l => exp l := rfl

theorem tg_nonneg {q : ℚ} {z : Bool} (hq : 0 ≤ q) (n : ℕ) :
    tgamma_check (n + 1) (fin q z : FV f) = tgamma_check 1 (fin q z) := by
  have h : ¬ (fin q z : FV f) < i 0 := by rw [i_zero, fin_lt]; linarith
  rw [tg_unfold, show tgamma_check 1 (fin q z : FV f) = tgamma_check (0 + 1) (fin q z) from rfl, tg_unfold,
    if_neg h, if_neg h]

theorem tg_one_ok (hf : f.exact = false) (x : FV f) (h : ¬ x < i 0) : ∀ u, tgamma_check 1 x = .error u → u = .castRange := by
  intro u
  rw [show tgamma_check 1 x = tgamma_check (0 + 1) x from rfl, tg_unfold, if_neg h]
  obtain ⟨l, hl⟩ := C53_lgamma_total hf x
  rw [hl]
  split_ifs
  · simp
  · simp
  · simp
  · exact fun hc => exp_error hf (valid_lgamma hl) hc

theorem minNormal_lt_64 (f : Fmt) : minNormal f < pow2 (-64) := by
  refine (minNormal_le f).trans_lt ?_
  exact pow2_lt (by norm_num)

theorem rep_pow2_64 : Rep f (pow2 (-64)) := by
  have := rep_of_scaled (f := f) (m := 1) (e := -64) (by have := two_pow_prec f; simp; omega)
    (by rcases f with ⟨⟨⟩, ⟨⟩⟩ <;> decide)
  simpa using this

theorem not_tiny_mk {q : ℚ} {zs : Bool} (h : pow2 (-64) ≤ q) : ¬ (limMin : FV f) > fabs (mk f q zs) := by
  intro hc
  have h1 := (abs_lt.1 (tiny_mk hc)).2
  have h2 := le_rnd_of_rep (f := f) rep_pow2_64 h
  linarith [minNormal_lt_64 f]

/-- a non-integer is at least `2^-64` above its floor -/
theorem frac_ge (hf : f.exact = false) {q : ℚ} (hr : Rep f q) (h1 : 1/2 ≤ |q|) (hn : q ≠ ⌊q⌋) :
    pow2 (-64) ≤ q - ⌊q⌋ := by
  obtain ⟨n, hq⟩ := grid_of_rep hf hr (k := -1) (by rw [show pow2 (-1) = 1/2 by norm_num [pow2_eq]]; exact h1)
  have e1 : (1:ℚ) = 2 ^ f.prec * pow2 (-1 + 1 - f.prec) := by
    rw [← pow2_nat, ← pow2_add, show (f.prec : ℤ) + (-1 + 1 - f.prec) = 0 by ring, pow2_zero]
  have hp := pow2_pos (-1 + 1 - f.prec)
  have e2 : q - ⌊q⌋ = ((n - ⌊q⌋ * 2 ^ f.prec : ℤ) : ℚ) * pow2 (-1 + 1 - f.prec) := by
    rw [Int.cast_sub, Int.cast_mul, Int.cast_pow, Int.cast_ofNat, sub_mul, ← hq, mul_assoc, ← e1, mul_one]
  have hl := Int.floor_le q
  have hpos : 0 < q - ⌊q⌋ := by
    rcases lt_or_eq_of_le hl with h | h
    · linarith
    · exact absurd h.symm hn
  rw [e2] at hpos ⊢
  have h3 : (0:ℚ) < ((n - ⌊q⌋ * 2 ^ f.prec : ℤ) : ℚ) := by
    by_contra hc
    push Not at hc
    nlinarith
  have h4 : (1:ℚ) ≤ ((n - ⌊q⌋ * 2 ^ f.prec : ℤ) : ℚ) := by
    have : (0:ℤ) < n - ⌊q⌋ * 2 ^ f.prec := by exact_mod_cast h3
    exact_mod_cast this
  have h5 : pow2 (-64) ≤ pow2 (-1 + 1 - f.prec) := pow2_le (by
    have : (f.prec : ℤ) ≤ 64 := by rcases f with ⟨⟨⟩, ⟨⟩⟩ <;> decide
    omega)
  calc pow2 (-64) ≤ 1 * pow2 (-1 + 1 - f.prec) := by linarith
    _ ≤ _ := by gcongr

theorem whole_core (hf : f.exact = false) {q : ℚ} {z : Bool} (hx : Valid (fin q z : FV f)) (h0 : q < 0)
    (hm : minNormal f ≤ |q|) : ∃ W : ℤ, W ≤ ⌊q⌋ ∧ ⌊q⌋ - 1 ≤ W ∧ (q = ⌊q⌋ → W = ⌊q⌋) ∧
      find_whole (fin q z : FV f) = if -2 ^ 63 ≤ W then .ok W else .error .castRange := by
  rcases le_or_gt 1 |q| with h1 | h1
  · refine ⟨wholeOf q, ?_, ?_, ?_, ?_⟩
    · unfold wholeOf; split_ifs <;> first | omega | (exfalso; linarith)
    · unfold wholeOf; split_ifs <;> omega
    · intro h
      have : ¬ (1/2 : ℚ) ≤ q - ⌊q⌋ := by rw [← h]; norm_num
      unfold wholeOf; rw [if_neg this]
    · rw [(find_split hf hx h1).2]
      have hfl : ⌊q⌋ ≤ 0 := by
        have := Int.floor_le q
        have h2 : (⌊q⌋ : ℚ) < ((1:ℤ) : ℚ) := by push_cast; linarith
        have : ⌊q⌋ < 1 := by exact_mod_cast h2
        omega
      have hW : wholeOf q ≤ 2 ^ 63 - 1 := by
        have : wholeOf q ≤ ⌊q⌋ := by unfold wholeOf; split_ifs <;> first | omega | (exfalso; linarith)
        omega
      simp only [hW, and_true]
  · have hfl : ⌊q⌋ = -1 := by
      rw [Int.floor_eq_iff]; rw [abs_of_neg h0] at h1; constructor <;> push_cast <;> linarith
    have hchk := floor_check_eq hf hx (Or.inr hm)
    rw [hfl] at hchk
    have hz : z = false := hx.z_false h0.ne
    subst hz
    have hsg : sgn (fin q false : FV f) = -1 := by rw [sgn_fin, if_neg (by linarith), if_pos h0]
    have h2 : (fin (-1 : ℤ) false : FV f) + i (-1) = fin ((-2 : ℤ) : ℚ) false := by
      rw [i_small (by decide), fin_add_rep]
      · norm_num
      · have := rep_int (f := f) (n := -2) (by have := two_pow_prec f; simp; omega)
        norm_num at this ⊢; exact this
      · exact nov' (by norm_num)
    by_cases hc : d (1/2) ≤ fabs ((fin q false : FV f) - fin ((-1:ℤ):ℚ) false)
    · refine ⟨-2, by omega, by omega, ?_, ?_⟩
      · intro h; rw [hfl] at h; push_cast at h; rw [h] at h1; norm_num at h1
      · unfold find_whole
        rw [hchk]
        simp only [bind, Except.bind]
        rw [if_pos hc, hsg, h2, toI64_int]; norm_num
    · refine ⟨-1, by omega, by omega, fun _ => hfl.symm, ?_⟩
      unfold find_whole
      rw [hchk]
      simp only [bind, Except.bind]
      rw [if_neg hc, toI64_int]; norm_num

/-- the three outcomes of the integer test of `tgamma` on negative arguments -/
theorem whole_neg (hf : f.exact = false) {q : ℚ} {z : Bool} (hx : Valid (fin q z : FV f)) (h0 : q < 0)
    (hm : minNormal f ≤ |q|) : ∃ W : ℤ, W ≤ ⌊q⌋ ∧ ⌊q⌋ - 1 ≤ W ∧ (q = ⌊q⌋ → W = ⌊q⌋) ∧
      (find_whole (fin q z : FV f) = if -2 ^ 63 ≤ W then .ok W else .error .castRange) ∧
      ((limMin : FV f) > fabs (fin q z - i W) ↔ q = ⌊q⌋) := by
  obtain ⟨W, w1, w2, w3, w4⟩ := whole_core hf hx h0 hm
  refine ⟨W, w1, w2, w3, w4, ?_⟩
  constructor
  · intro ht
    by_contra hn
    have hlt : |q| < 2 ^ (f.prec - 1) := by
      by_contra hb
      obtain ⟨n, hn'⟩ := int_of_big hf hx.rep (not_lt.1 hb)
      apply hn; rw [hn', Int.floor_intCast]
    have hl := Int.floor_le q
    have hu := Int.lt_floor_add_one q
    have w1q : (W : ℚ) ≤ ⌊q⌋ := by exact_mod_cast w1
    have w2q : (⌊q⌋ : ℚ) - 1 ≤ W := by exact_mod_cast w2
    have hW : |W| ≤ 2 ^ f.prec := by
      have h3 : |(W : ℚ)| ≤ 2 ^ f.prec := by
        have e : (2:ℚ) ^ f.prec = 2 * 2 ^ (f.prec - 1) := by
          rw [← pow_succ']; congr 1; have := prec_pos f; omega
        have : (2:ℚ) ≤ 2 ^ (f.prec - 1) := by
          calc (2:ℚ) = 2 ^ 1 := by norm_num
            _ ≤ _ := pow_le_pow_right₀ (by norm_num) (by rcases f with ⟨⟨⟩, ⟨⟩⟩ <;> decide)
        rw [abs_of_neg h0] at hlt
        rw [e, abs_le]; constructor <;> linarith
      rw [← Int.cast_abs] at h3
      exact_mod_cast h3
    rw [i_eq hW, fin_sub] at ht
    refine not_tiny_mk ?_ ht
    rcases le_or_gt (1/2) |q| with h2 | h2
    · have := frac_ge hf hx.rep h2 hn; linarith
    · have : pow2 (-64) ≤ 1/2 := by rw [show (1/2 : ℚ) = pow2 (-1) by norm_num [pow2_eq]]; exact pow2_le (by norm_num)
      rw [abs_of_neg h0] at h2
      have hfl : ⌊q⌋ = -1 := by rw [Int.floor_eq_iff]; constructor <;> push_cast <;> linarith
      rw [hfl] at w1q; push_cast at w1q
      linarith
  · intro h
    have hi : (i W : FV f) = fin q false := by
      unfold i; rw [w3 h, ← h, mk_of_rep hx.rep hx.novf]; simp
    rw [hi, fin_sub, sub_self, mk_zero, limMin_gt_fabs, abs_zero]; exact minNormal_pos f

theorem rep_add_one (hf : f.exact = false) {q : ℚ} (hr : Rep f q) (h : q < -1) (hn : q ≠ ⌊q⌋) : Rep f (q + 1) := by
  have h0 : q ≠ 0 := by rintro rfl; linarith
  obtain ⟨m, hm, hb⟩ := rep_scaled hf h0 hr
  rcases le_total 0 (fexp f q) with he | he
  · obtain ⟨k, -, hk⟩ := pow2_mult he
    rw [pow2_zero, mul_one] at hk
    exfalso; apply hn
    rw [show q = ((m * k : ℤ) : ℚ) by rw [hm, hk]; push_cast; ring, Int.floor_intCast]
  · obtain ⟨k, -, hk⟩ := pow2_mult he
    rw [pow2_zero] at hk
    have e : q + 1 = ((m + k : ℤ) : ℚ) * pow2 (fexp f q) := by
      rw [Int.cast_add, add_mul, ← hm, ← hk]
    have hp := pow2_pos (fexp f q)
    rw [e]
    refine rep_of_scaled ?_ (fexp_ge f q)
    have h1 : |((m + k : ℤ) : ℚ)| * pow2 (fexp f q) ≤ |(m:ℚ)| * pow2 (fexp f q) := by
      have a1 : ∀ t : ℚ, |t| * pow2 (fexp f q) = |t * pow2 (fexp f q)| := fun t => by
        rw [abs_mul, abs_of_pos hp]
      rw [a1, a1, ← e, ← hm, abs_of_neg (by linarith), abs_of_neg (by linarith)]
      linarith
    have h2 := le_of_mul_le_mul_right h1 hp
    have h3 : |m + k| ≤ |m| := by exact_mod_cast h2
    exact h3.trans (by omega)

theorem not_one_neg {q : ℚ} {z : Bool} (h : q < 0) : ¬ (limMin : FV f) > fabs (fin q z - i 1) := by
  intro hc
  rw [i_one, fin_sub] at hc
  have h1 := (abs_lt.1 (tiny_mk hc)).1
  have h2 := rnd_le_of_rep (f := f) (q := q - 1) rep_one.neg (by linarith)
  linarith [minNormal_lt_one f]

theorem tg_neg {q : ℚ} {z : Bool} (h : q < 0) (hm : minNormal f ≤ |q|) (n : ℕ) :
    tgamma_check (n + 1) (fin q z : FV f) = (find_whole (fin q z : FV f)).bind fun w =>
      if (limMin : FV f) > fabs (fin q z - i w) then .ok nan
        else (tgamma_check n (fin q z + i 1)).bind fun r => .ok (r / fin q z) := by
  rw [tg_unfold, if_neg (by simp), if_neg (not_one_neg h), if_neg (by rw [limMin_gt_fabs]; linarith),
    if_pos (by rw [i_zero, fin_lt]; exact h)]

theorem tg_fuel (hf : f.exact = false) : ∀ (n : ℕ) (q : ℚ) (z : Bool), Valid (fin q z : FV f) → -(n:ℚ) ≤ q →
    ∀ m, tgamma_check (n + 1 + m) (fin q z : FV f) = tgamma_check (n + 1) (fin q z) ∧
      ∀ u, tgamma_check (n + 1) (fin q z : FV f) = .error u → u = .castRange := by
  intro n
  induction n with
  | zero =>
    intro q z hx h m
    have hq : 0 ≤ q := by simpa using h
    refine ⟨?_, tg_one_ok hf _ (by rw [i_zero, fin_lt]; linarith)⟩
    rw [show 0 + 1 + m = m + 1 by omega, tg_nonneg hq]
  | succ n ih =>
    intro q z hx h m
    rcases le_or_gt 0 q with hq | hq
    · rw [show n + 1 + 1 + m = (n + 1 + m) + 1 by omega, tg_nonneg hq, tg_nonneg hq (n + 1)]
      exact ⟨rfl, tg_one_ok hf _ (by rw [i_zero, fin_lt]; linarith)⟩
    rcases lt_or_ge |q| (minNormal f) with hm | hm
    · rw [show n + 1 + 1 + m = (n + 1 + m) + 1 by omega, tg_unfold, tg_unfold, if_neg (by simp),
        if_neg (not_one_neg hq), if_pos (limMin_gt_fabs.2 hm), if_neg (by simp),
        if_neg (not_one_neg hq), if_pos (limMin_gt_fabs.2 hm)]
      simp
    obtain ⟨W, -, -, -, w4, w5⟩ := whole_neg hf hx hq hm
    rw [show n + 1 + 1 + m = (n + 1 + m) + 1 by omega, tg_neg hq hm, tg_neg hq hm, w4]
    split
    swap
    · simp [Except.bind]
    simp only [Except.bind]
    by_cases hi : q = ⌊q⌋
    · rw [if_pos (w5.2 hi), if_pos (w5.2 hi)]; simp
    rw [if_neg (fun hh => hi (w5.1 hh)), if_neg (fun hh => hi (w5.1 hh))]
    have hstep : ∃ r w, (fin q z : FV f) + i 1 = fin r w ∧ -(n:ℚ) ≤ r := by
      rw [i_one, fin_add]
      rcases lt_or_ge q (-1) with h1 | h1
      · have hr := rep_add_one hf hx.rep h1 hi
        have hov : overflows f (q + 1) = false := overflows_of_abs_le (by
          rw [abs_of_neg (by linarith), abs_of_neg hq]; linarith) hx.novf
        rw [mk_of_rep hr hov]
        push_cast at h
        exact ⟨_, _, rfl, by linarith⟩
      · rw [mk_fin (nov (by rw [abs_of_nonneg (by linarith)]; norm_num; linarith))]
        refine ⟨_, _, rfl, ?_⟩
        have : 0 ≤ rnd f (q + 1) := rnd_nonneg (by linarith)
        have : (0:ℚ) ≤ n := by positivity
        linarith
    obtain ⟨r, w, e, hr⟩ := hstep
    have hvr : Valid (fin r w : FV f) := e ▸ valid_add _ _
    obtain ⟨k1, k2⟩ := ih r w hvr hr m
    rw [e, k1]
    refine ⟨rfl, ?_⟩
    cases hc : tgamma_check (n + 1) (fin r w : FV f) with
    | error u => intro u' h'; injection h' with h'; rw [← h']; exact k2 u hc
    | ok v => simp

theorem fuel_enough {q : ℚ} (h : -2 ^ 63 - 2 ≤ q) : -((recFuel - 2 : ℕ) : ℚ) ≤ q := by
  have : ((recFuel - 2 : ℕ) : ℚ) = 2 ^ 70 - 2 := by
    unfold recFuel; norm_num
  rw [this]; norm_num at *; linarith

/-- C53: `tgamma` at NaN, one, zero and below the least normal value, at the infinities, at negative integers
and below `-2^63`. -/
theorem C53_tgamma_special (hf : f.exact = false) :
    tgamma (nan : FV f) = .ok nan ∧ (∀ z, tgamma (fin 1 z : FV f) = .ok (fin 1 false)) ∧
    (∀ (q : ℚ) (z : Bool), |q| < minNormal f → tgamma (fin q z : FV f) = .ok (inf false)) ∧
    tgamma (inf false : FV f) = .ok nan ∧ tgamma (inf true : FV f) = .error .castRange ∧
    (∀ (n : ℤ) (z : Bool), Valid (fin n z : FV f) → -2 ^ 63 ≤ n → n < 0 → tgamma (fin n z : FV f) = .ok nan) ∧
    (∀ (q : ℚ) (z : Bool), Valid (fin q z : FV f) → q < -2 ^ 63 → tgamma (fin q z : FV f) = .error .castRange) := by
  have hfu : ∀ x : FV f, tgamma x = tgamma_check ((recFuel - 1) + 1) x := fun x => rfl
  have hm := minNormal_lt_one f
  refine ⟨?_, ?_, ?_, ?_, ?_, ?_, ?_⟩
  · rw [hfu, tg_unfold, if_pos (by simp)]
  · intro z
    rw [hfu, tg_unfold, if_neg (by simp), if_pos, i_one]
    rw [i_one, fin_sub, sub_self, mk_zero, limMin_gt_fabs, abs_zero]; exact minNormal_pos f
  · intro q z h
    rw [hfu, tg_unfold, if_neg (by simp), if_neg, if_pos (limMin_gt_fabs.2 h)]
    rw [i_one, fin_sub]
    intro hc
    have h1 := (abs_lt.1 (tiny_mk hc)).1
    have h3 := (abs_lt.1 h).2
    have h2 : rnd f (q - 1) ≤ -(1/2) := rnd_le_of_rep (by
      have := rep_of_scaled (f := f) (m := -1) (e := -1) (by
        have := two_pow_prec f; simp; omega) (by rcases f with ⟨⟨⟩, ⟨⟩⟩ <;> decide)
      rwa [show ((-1 : ℤ) : ℚ) * pow2 (-1) = -(1/2) by norm_num [pow2_eq]] at this) (by linarith)
    linarith
  · rw [hfu, tg_unfold, if_neg (by simp), i_one, inf_sub_fin, if_neg (not_tiny_inf _), if_neg (not_tiny_inf _),
      if_neg (by simp), (C53_lgamma_special hf).2.2.2]
    exact C30_special.1
  · rw [hfu, tg_unfold, if_neg (by simp), i_one, inf_sub_fin, if_neg (not_tiny_inf _), if_neg (not_tiny_inf _),
      if_pos (by simp)]
    have : find_whole (inf true : FV f) = .error .castRange := by
      unfold find_whole
      rw [floor_check_inf]
      simp only [bind, Except.bind]
      split_ifs
      · have : ∃ s, (inf true : FV f) + i (sgn (inf true : FV f)) = inf s := ⟨true, by
          have : (i (sgn (inf true : FV f)) : FV f) = fin (-1) false := by
            rw [show sgn (inf true : FV f) = -1 by simp [sgn], i_small (by decide)]; norm_num
          rw [this]; rfl⟩
        obtain ⟨s, hs⟩ := this
        rw [hs]; rfl
      · rfl
    rw [this]; rfl
  · intro n z hx h1 h2
    have hq : (n:ℚ) < 0 := by exact_mod_cast h2
    have hm2 : minNormal f ≤ |(n:ℚ)| := by
      have : (n:ℚ) ≤ -1 := by exact_mod_cast (by omega : n ≤ -1)
      rw [abs_of_neg hq]; linarith
    obtain ⟨W, -, -, w3, w4, w5⟩ := whole_neg hf hx hq hm2
    have hfl : (n:ℚ) = ⌊(n:ℚ)⌋ := by rw [Int.floor_intCast]
    have hW : W = n := by rw [w3 hfl, Int.floor_intCast]
    rw [hfu, tg_neg hq hm2, w4, hW, if_pos h1]
    simp only [Except.bind]
    rw [if_pos (by have := w5.2 hfl; rwa [hW] at this)]
  · intro q z hx h
    have hq : q < 0 := by linarith [show (0:ℚ) < 2 ^ 63 by norm_num]
    have hm2 : minNormal f ≤ |q| := by
      rw [abs_of_neg hq]; linarith [show (1:ℚ) < 2 ^ 63 by norm_num]
    obtain ⟨W, w1, -, -, w4, -⟩ := whole_neg hf hx hq hm2
    rw [hfu, tg_neg hq hm2, w4, if_neg]
    · rfl
    · have := Int.floor_le q
      have h1 : (W:ℚ) < ((-2 ^ 63 : ℤ) : ℚ) := by
        have : (W:ℚ) ≤ ⌊q⌋ := by exact_mod_cast w1
        rw [show ((-2 ^ 63 : ℤ) : ℚ) = -2 ^ 63 by push_cast; rfl]; linarith
      have h2 : W < -2 ^ 63 := by exact_mod_cast h1
      omega

/-- C53: the functional equation as computed: for a negative non-integer `x` not below `-2^63 + 1`,
`tgamma(x)` is `tgamma(x + 1) / x` (with the same undefined behaviour, if any). -/
theorem C53_tgamma_recursion (hf : f.exact = false) (q : ℚ) (z : Bool) (hx : Valid (fin q z : FV f)) (h : q < 0)
    (hm : minNormal f ≤ |q|) (hi : ∀ n : ℤ, q ≠ n) (hlo : -2 ^ 63 + 1 ≤ q) :
    tgamma (fin q z : FV f) = (tgamma (fin q z + fin 1 false)).bind fun r => .ok (r / fin q z) := by
  obtain ⟨W, w1, w2, -, w4, w5⟩ := whole_neg hf hx h hm
  have hW : -2 ^ 63 ≤ W := by
    have hu := Int.lt_floor_add_one q
    have h1 : ((-2 ^ 63 + 1 : ℤ) : ℚ) ≤ q := by rw [show ((-2 ^ 63 + 1 : ℤ) : ℚ) = -2 ^ 63 + 1 by norm_num]; exact hlo
    have := Int.le_floor.2 h1
    omega
  have hfu : tgamma (fin q z : FV f) = tgamma_check ((recFuel - 1) + 1) (fin q z) := rfl
  rw [hfu, tg_neg h hm, w4, if_pos hW]
  simp only [Except.bind]
  rw [if_neg (fun hh => hi _ (w5.1 hh))]
  -- fuel
  have hstep : ∃ r w, (fin q z : FV f) + i 1 = fin r w ∧ -2 ^ 63 - 2 ≤ r := by
    rw [i_one, fin_add]
    rcases lt_or_ge q (-1) with h1 | h1
    · have hr := rep_add_one hf hx.rep h1 (hi _)
      have hov : overflows f (q + 1) = false := overflows_of_abs_le (by
        rw [abs_of_neg (by linarith), abs_of_neg h]; linarith) hx.novf
      rw [mk_of_rep hr hov]
      exact ⟨_, _, rfl, by linarith⟩
    · rw [mk_fin (nov (by rw [abs_of_nonneg (by linarith)]; norm_num; linarith))]
      refine ⟨_, _, rfl, ?_⟩
      have : 0 ≤ rnd f (q + 1) := rnd_nonneg (by linarith)
      norm_num; linarith
  obtain ⟨r, w, e, hr⟩ := hstep
  rw [i_one] at e
  rw [i_one, e]
  have hvr : Valid (fin r w : FV f) := e ▸ valid_add _ _
  have := (tg_fuel hf (recFuel - 2) r w hvr (fuel_enough hr) 1).1
  rw [show recFuel - 2 + 1 + 1 = recFuel by unfold recFuel; norm_num, show recFuel - 2 + 1 = recFuel - 1 by unfold recFuel; norm_num] at this
  rw [← this]
  rfl

/-- C53: termination.  `tgamma` always returns or runs into the out-of-range conversion; for
`-n ≤ x` at most `n + 1` nested calls are made. -/
theorem C53_tgamma_terminates (hf : f.exact = false) (x : FV f) (hx : Valid x) :
    ((∃ r, tgamma x = .ok r) ∨ tgamma x = .error .castRange) ∧
    ∀ (n : ℕ) (q : ℚ) (z : Bool), x = fin q z → -(n:ℚ) ≤ q → n + 1 ≤ recFuel → tgamma_check (n + 1) x = tgamma x := by
  have hfu : ∀ x : FV f, tgamma x = tgamma_check ((recFuel - 1) + 1) x := fun x => rfl
  have key : ∀ (n : ℕ) (q : ℚ) (z : Bool), Valid (fin q z : FV f) → -(n:ℚ) ≤ q → n + 1 ≤ recFuel →
      tgamma_check (n + 1) (fin q z : FV f) = tgamma (fin q z) := by
    intro n q z hv h1 h2
    have := (tg_fuel hf n q z hv h1 (recFuel - (n + 1))).1
    rw [show n + 1 + (recFuel - (n + 1)) = recFuel by omega] at this
    rw [← this]; rfl
  refine ⟨?_, fun n q z h h1 h2 => by rw [h]; exact key n q z (h ▸ hx) h1 h2⟩
  cases x with
  | nan => exact Or.inl ⟨_, (C53_tgamma_special hf).1⟩
  | inf s =>
    cases s
    · exact Or.inl ⟨_, (C53_tgamma_special hf).2.2.2.1⟩
    · exact Or.inr (C53_tgamma_special hf).2.2.2.2.1
  | fin q z =>
    rcases lt_or_ge q (-2 ^ 63) with h | h
    · exact Or.inr ((C53_tgamma_special hf).2.2.2.2.2.2 q z hx h)
    · have h1 := (tg_fuel hf (recFuel - 2) q z hx (fuel_enough (by linarith)) 0).2
      rw [key _ _ _ hx (fuel_enough (by linarith)) (by unfold recFuel; norm_num)] at h1
      cases hc : tgamma (fin q z : FV f) with
      | ok r => exact Or.inl ⟨_, rfl⟩
      | error u => rw [h1 u hc]; exact Or.inr rfl

/-- C53: for non-negative arguments away from zero and one `tgamma` is the exponential of `lgamma`. -/
theorem C53_tgamma_positive (q : ℚ) (z : Bool) (hm : minNormal f ≤ q)
    (h1 : ¬ (limMin : FV f) > fabs (fin q z - fin 1 false)) :
    tgamma (fin q z : FV f) = (lgamma (fin q z : FV f)).bind fun l => exp l := by
  have h0 := minNormal_pos f
  have hfu : tgamma (fin q z : FV f) = tgamma_check ((recFuel - 1) + 1) (fin q z) := rfl
  rw [hfu, tg_unfold, if_neg (by simp), i_one, if_neg h1, if_neg (by
    rw [limMin_gt_fabs, abs_of_nonneg (by linarith)]; linarith), if_neg (by rw [i_zero, fin_lt]; linarith)]

/-- C53: on the positive side the result overflows silently to `+inf` at `1e17`, yet at `1e18` the evaluation
converts an out-of-range value to `long long int`, which is undefined. -/
theorem C53_tgamma_large_undefined :
    tgamma (fin (10 ^ 17) false : FV binary64) = .ok (inf false) ∧
    tgamma (fin (10 ^ 18) false : FV binary64) = .error .castRange := by
  decide +kernel

/-! ## beta functions -/

/-- C54: `lbeta` never has undefined behaviour and is symmetric, bit for bit. -/
theorem C54_lbeta_symm (hf : f.exact = false) (a b : FV f) :
    (∃ r, lbeta a b = .ok r) ∧ lbeta a b = lbeta b a := by
  obtain ⟨la, ha⟩ := C53_lgamma_total hf a
  obtain ⟨lb, hb⟩ := C53_lgamma_total hf b
  obtain ⟨lc, hc⟩ := C53_lgamma_total hf (a + b)
  have hc' : lgamma (b + a) = .ok lc := by rw [FV.add_comm']; exact hc
  have e1 : lbeta a b = .ok ((la + lb) - lc) := by unfold lbeta; rw [ha, hb, hc]; rfl
  have e2 : lbeta b a = .ok ((lb + la) - lc) := by unfold lbeta; rw [hb, ha, hc']; rfl
  exact ⟨⟨_, e1⟩, by rw [e1, e2, FV.add_comm' la lb]⟩

theorem valid_lbeta {a b l : FV f} (h : lbeta a b = .ok l) : Valid l := by
  unfold lbeta at h
  simp only [bind, Except.bind] at h
  split at h
  · cases h
  split at h
  · cases h
  split at h
  · cases h
  injection h with h; rw [← h]; exact valid_sub _ _

/-- C54: `beta(a,b)` and `beta(b,a)` are the same value (or both undefined), namely the exponential of
`lbeta(a,b)`; the only undefined behaviour is the out-of-range conversion in `exp`. -/
theorem C54_beta_symm (hf : f.exact = false) (a b : FV f) :
    beta a b = beta b a ∧ (∃ l, lbeta a b = .ok l ∧ beta a b = exp l) ∧
    (∀ u, beta a b = .error u → u = .castRange) := by
  obtain ⟨⟨l, hl⟩, hs⟩ := C54_lbeta_symm hf a b
  have e : beta a b = exp l := by unfold beta; rw [hl]; rfl
  refine ⟨by unfold beta; rw [hs], ⟨l, hl, e⟩, ?_⟩
  intro u hu
  rw [e] at hu
  exact exp_error hf (valid_lbeta hl) hu

/-- C54: NaN in either argument propagates through `lbeta` and `beta`. -/
theorem C54_nan (hf : f.exact = false) (a : FV f) :
    lbeta nan a = .ok nan ∧ lbeta a nan = .ok nan ∧ beta nan a = .ok nan ∧ beta a nan = .ok nan := by
  have h : lbeta nan a = .ok nan := by
    obtain ⟨la, ha⟩ := C53_lgamma_total hf a
    unfold lbeta
    rw [(C53_lgamma_special hf).1, ha]
    simp only [bind, Except.bind]
    rw [show (nan : FV f) + a = nan from rfl, (C53_lgamma_special hf).1]; rfl
  have h2 : lbeta a nan = .ok nan := by rw [← (C54_lbeta_symm hf nan a).2]; exact h
  have h3 : beta nan a = .ok nan := by unfold beta; rw [h]; exact C30_special.1
  exact ⟨h, h2, h3, by rw [(C54_beta_symm hf a nan).1]; exact h3⟩

/-! ## log_binomial_coef and lmgamma -/

theorem int_sub {m n : ℤ} {y z : Bool} (hm : |m - n| ≤ 2 ^ f.prec) :
    ∃ w, (fin (m:ℚ) y : FV f) - fin (n:ℚ) z = fin ((m - n : ℤ) : ℚ) w := by
  have hr : Rep f ((m:ℚ) - n) ∧ overflows f ((m:ℚ) - n) = false := by
    refine ⟨by have := rep_int (f := f) hm; rwa [Int.cast_sub] at this, ?_⟩
    have h2 : ((|m - n| : ℤ) : ℚ) ≤ ((2 ^ f.prec : ℤ) : ℚ) := by exact_mod_cast hm
    rw [Int.cast_abs, Int.cast_sub] at h2
    refine nov' (h2.trans ?_)
    push_cast
    exact pow_le_pow_right₀ (by norm_num) (by rcases f with ⟨⟨⟩, ⟨⟩⟩ <;> decide)
  rw [fin_sub_rep hr.1 hr.2, Int.cast_sub]
  exact ⟨_, rfl⟩

theorem int_add_one (m : ℤ) (y z : Bool) : (fin (m:ℚ) y : FV f) + i 1 = fin (m:ℚ) z + i 1 := by
  rw [i_one, fin_add, fin_add, Bool.and_false, Bool.and_false]

/-- C55: `log_binomial_coef` is total, and for integer-valued `n`, `k` with `|k|` and `|n - k|` at most
`2^prec` it gives the same value for `k` and `n - k`. -/
theorem C55_binomial_symm (hf : f.exact = false) (n k : ℤ) (y z : Bool) (hk : |k| ≤ 2 ^ f.prec) (hnk : |n - k| ≤ 2 ^ f.prec) :
    (∃ r, log_binomial_coef (fin (n:ℚ) y : FV f) (fin (k:ℚ) z) = .ok r) ∧
    log_binomial_coef (fin (n:ℚ) y : FV f) (fin (n:ℚ) y - fin (k:ℚ) z)
      = log_binomial_coef (fin (n:ℚ) y : FV f) (fin (k:ℚ) z) := by
  obtain ⟨w, hw⟩ := int_sub (f := f) (y := y) (z := z) hnk
  obtain ⟨w', hw'⟩ := int_sub (f := f) (m := n) (n := n - k) (y := y) (z := w) (by simpa using hk)
  obtain ⟨a, ha⟩ := C53_lgamma_total hf ((fin (n:ℚ) y : FV f) + i 1)
  obtain ⟨b, hb⟩ := C53_lgamma_total hf ((fin (k:ℚ) z : FV f) + i 1)
  obtain ⟨c, hc⟩ := C53_lgamma_total hf ((fin (n:ℚ) y : FV f) - fin (k:ℚ) z + i 1)
  have e1 : log_binomial_coef (fin (n:ℚ) y : FV f) (fin (k:ℚ) z) = .ok (a - (b + c)) := by
    unfold log_binomial_coef; rw [ha, hb, hc]; rfl
  have e2 : log_binomial_coef (fin (n:ℚ) y : FV f) (fin (n:ℚ) y - fin (k:ℚ) z) = .ok (a - (c + b)) := by
    unfold log_binomial_coef
    rw [ha, hc, hw, hw', show n - (n - k) = k by ring, int_add_one k w' z, hb]; rfl
  exact ⟨⟨_, e1⟩, by rw [e1, e2, FV.add_comm' b c]⟩

/-- C55: choosing nothing or everything gives the logarithm zero whenever the logarithm of `n!` is finite. -/
theorem C55_binomial_ends (n : ℤ) (y z : Bool) (hn : |n| ≤ 2 ^ f.prec) (a : ℚ) (s : Bool)
    (ha : lgamma ((fin (n:ℚ) y : FV f) + i 1) = .ok (fin a s)) :
    (∃ t, log_binomial_coef (fin (n:ℚ) y : FV f) (fin 0 z) = .ok (fin 0 t)) ∧
    (∃ t, log_binomial_coef (fin (n:ℚ) y : FV f) (fin (n:ℚ) y) = .ok (fin 0 t)) := by
  have hv := valid_lgamma ha
  have h0 : ∀ z, (fin 0 z : FV f) + i 1 = fin 1 false := by
    intro z
    rw [i_one, fin_add, zero_add, mk_of_rep rep_one (nov' (by norm_num))]; simp
  obtain ⟨w, hw⟩ := int_sub (f := f) (m := n) (n := 0) (y := y) (z := z) (by simpa using hn)
  rw [sub_zero, Int.cast_zero] at hw
  obtain ⟨w', hw'⟩ := int_sub (f := f) (m := n) (n := n) (y := y) (z := y) (by simp)
  rw [sub_self, Int.cast_zero] at hw'
  have hz : ∀ t, (fin a s : FV f) - fin a t = fin 0 (s && (if a = 0 then !t else t)) := by
    intro t
    rw [fin_sub, sub_self, mk_zero]
  have hadd : ∃ t, (fin 0 false : FV f) + fin a s = fin a t := by
    rw [fin_add, zero_add, mk_of_rep hv.rep hv.novf]; exact ⟨_, rfl⟩
  obtain ⟨t, ht⟩ := hadd
  constructor
  · unfold log_binomial_coef
    rw [ha, h0, lgamma_one, hw, int_add_one n w y, ha]
    simp only [bind, Except.bind]
    rw [ht, hz]; exact ⟨_, rfl⟩
  · unfold log_binomial_coef
    rw [ha, hw', h0, lgamma_one]
    simp only [bind, Except.bind]
    rw [FV.add_comm', ht, hz]; exact ⟨_, rfl⟩

/-- C55: `lmgamma` is total for every dimension, agrees with `lgamma` in dimension one, is NaN for dimensions
below one, and satisfies the recursion over the dimension. -/
theorem C55_lmgamma (hf : f.exact = false) (a : FV f) (p : ℤ) :
    (∃ r, lmgamma a p = .ok r) ∧ lmgamma a 1 = lgamma a ∧ (p < 1 → lmgamma a p = .ok nan) ∧
    (1 < p → a ≠ nan → ∃ l r, lgamma a = .ok l ∧ lmgamma (a - d 0.5) (p - 1) = .ok r ∧
      lmgamma a p = .ok (L LOG_PI * (i p - i 1) / i 2 + l + r)) := by
  have hstep : ∀ (a : FV f) (p : ℤ), lmgamma a p = if is_nan a then .ok limNaN else if p = 1 then lgamma a
      else if p < 1 then .ok limNaN else (lgamma a).bind fun l => (lmgamma (a - d 0.5) (p - 1)).bind fun r =>
        .ok (L LOG_PI * (i p - i 1) / i 2 + l + r) := by
    intro a p
    unfold lmgamma
    rw [lmgamma_recur]; rfl
  have htot : ∀ (n : ℕ) (a : FV f) (p : ℤ), p ≤ n → ∃ r, lmgamma a p = .ok r := by
    intro n
    induction n with
    | zero =>
      intro a p h
      rw [hstep, if_neg (show ¬ p = 1 by push_cast at h; omega), if_pos (show p < 1 by push_cast at h; omega)]
      split_ifs <;> exact ⟨_, rfl⟩
    | succ n ih =>
      intro a p h
      obtain ⟨l, hl⟩ := C53_lgamma_total hf a
      obtain ⟨r, hr⟩ := ih (a - d 0.5) (p - 1) (by push_cast at h; omega)
      rw [hstep, hl, hr]
      split_ifs <;> exact ⟨_, rfl⟩
  refine ⟨htot p.toNat a p (by omega), ?_, ?_, ?_⟩
  · rw [hstep, if_pos rfl]
    split_ifs with h
    · rw [is_nan_iff] at h; rw [h, (C53_lgamma_special hf).1]; rfl
    · rfl
  · intro h
    rw [hstep, if_neg (show ¬ p = 1 by omega), if_pos h]
    split_ifs <;> rfl
  · intro h ha
    obtain ⟨l, hl⟩ := C53_lgamma_total hf a
    obtain ⟨r, hr⟩ := htot (p - 1).toNat (a - d 0.5) (p - 1) (by omega)
    refine ⟨l, r, hl, hr, ?_⟩
    rw [hstep, if_neg (by rw [is_nan_iff]; exact ha), if_neg (by omega), if_neg (by omega), hl, hr]
    rfl

/-! ## examples -/

example : tgamma (fin (-7/2) false : FV binary64)
    = (tgamma (fin (-7/2) false + fin 1 false)).bind fun r => .ok (r / fin (-7/2) false) :=
  C53_tgamma_recursion rfl _ _ (by decide +kernel) (by norm_num) (by decide +kernel)
    (by intro n h; have h2 : (n:ℚ) * 2 = -7 := by rw [← h]; norm_num
        have : n * 2 = -7 := by exact_mod_cast h2
        omega) (by norm_num)
example : tgamma (fin (-7/2) false : FV binary64) = .ok (fin (4865476572933781/18014398509481984) false) := by
  decide +kernel
example : tgamma (fin (-3 : ℤ) false : FV binary64) = .ok nan :=
  (C53_tgamma_special rfl).2.2.2.2.2.1 (-3) false (by decide +kernel) (by norm_num) (by norm_num)
example : lgamma (fin (7/2) false : FV binary64) = .ok (fin (676088033501511/562949953421312) false) := by
  decide +kernel
example : lbeta (fin (5/2) false : FV binary64) (fin 3 false) = lbeta (fin 3 false) (fin (5/2) false) :=
  (C54_lbeta_symm rfl _ _).2
example : log_binomial_coef (fin ((10:ℤ):ℚ) false : FV binary64) (fin ((10:ℤ):ℚ) false - fin ((3:ℤ):ℚ) false)
    = log_binomial_coef (fin ((10:ℤ):ℚ) false) (fin ((3:ℤ):ℚ) false) :=
  (C55_binomial_symm rfl 10 3 false false (by decide) (by decide)).2
example : lmgamma (fin 3 false : FV binary64) 1 = lgamma (fin 3 false) := (C55_lmgamma rfl _ 1).2.1

end Gcem.Props
