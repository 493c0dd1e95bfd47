import Verif.Props.Hyper
import Verif.Model.Special

/-!
# C51, C52: the error function and its inverse — symmetry, special values, undefined set
-/

namespace Gcem.Props
open Gcem FV
variable {f : Fmt}

/-! ## congruence lemmas: values that differ at most in the sign of a zero -/

theorem same_valid {a b : FV f} (ha : Valid a) (hb : Valid b) (h : a ≃ b) :
    a = b ∨ ∃ z w, a = fin 0 z ∧ b = fin 0 w := by
  cases a <;> cases b <;> simp [Same] at h
  · exact Or.inl rfl
  · exact Or.inl (by rw [h])
  · next q z r w =>
    subst h
    by_cases hq : q = 0
    · subst hq; exact Or.inr ⟨z, w, rfl, rfl⟩
    · rw [ha.z_false hq, hb.z_false hq]; exact Or.inl rfl

theorem exp_same {a b : FV f} (ha : Valid a) (hb : Valid b) (h : a ≃ b) : exp a = exp b := by
  rcases same_valid ha hb h with rfl | ⟨z, w, rfl, rfl⟩
  · rfl
  · rw [exp_tiny (by rw [abs_zero]; exact minNormal_pos f), exp_tiny (by rw [abs_zero]; exact minNormal_pos f)]

theorem sign_ne {a : ℚ} (h : a ≠ 0) (z w : Bool) : sign (fin a z : FV f) = sign (fin a w : FV f) := by
  simp [sign, h]

theorem Same.div_left {a b : FV f} (h : a ≃ b) (c : FV f) : a / c ≃ b / c := by
  cases a <;> cases b <;> simp [Same] at h
  · rfl
  · subst h; rfl
  · next q z r w =>
    subst h
    cases c with
    | nan => rfl
    | inf s => show (FV.div _ _ : FV f) ≃ FV.div _ _; simp [FV.div, Same]
    | fin b zb =>
      rw [fin_div_fin, fin_div_fin]
      by_cases hb : b = 0
      · by_cases hq : q = 0
        · simp [hb, hq]; rfl
        · simp only [hb, hq, if_true, if_false, sign_ne hq z w]; rfl
      · simp only [hb, if_false]; exact same_mk _ _ _

theorem SameRes.symm {r s : Res (FV f)} (h : SameRes r s) : SameRes s r := by
  cases r <;> cases s <;> simp [SameRes] at h ⊢
  · exact h.symm
  · exact Same.symm h

theorem SameRes.trans {r s t : Res (FV f)} (h : SameRes r s) (h2 : SameRes s t) : SameRes r t := by
  cases r <;> cases s <;> cases t <;> simp [SameRes] at h h2 ⊢
  · exact h.trans h2
  · exact Same.trans h h2

/-! ## C51 -/

theorem erf_def (x : FV f) : erf x = if is_nan x then .ok nan else if is_posinf x then .ok (i 1)
    else if is_neginf x then .ok (-i 1) else if limMin > fabs x then .ok (i 0)
    else if x < i 0 then (erf_begin (-x)).map Neg.neg else erf_begin x := by
  unfold erf erf_check
  rfl

/-- C51: special values. -/
theorem C51_special :
    erf (nan : FV f) = .ok nan ∧ erf (inf false : FV f) = .ok (fin 1 false) ∧
    erf (inf true : FV f) = .ok (fin (-1) false) ∧
    ∀ (q : ℚ) (z : Bool), |q| < minNormal f → erf (fin q z : FV f) = .ok (fin 0 false) := by
  refine ⟨by rw [erf_def]; simp, by rw [erf_def]; simp, by rw [erf_def]; simp [neg_fin], fun q z h => ?_⟩
  rw [erf_def, if_neg (by simp), if_neg (by simp), if_neg (by simp), if_pos (limMin_gt_fabs.2 h), i_zero]

theorem map_neg_neg (r : Res (FV f)) : (r.map Neg.neg).map Neg.neg = r := by
  cases r <;> simp [Except.map]

/-- C51: `erf` is odd.  Bit for bit (and with the same undefined set) unless the argument is below the
least normal value, where the result is `+0` for both signs. -/
theorem C51_odd (x : FV f) :
    (¬ (limMin : FV f) > fabs x → erf (-x) = (erf x).map Neg.neg) ∧ SameRes (erf (-x)) ((erf x).map Neg.neg) := by
  have key : ¬ (limMin : FV f) > fabs x → erf (-x) = (erf x).map Neg.neg := by
    intro ht
    cases x with
    | nan => rw [neg_nan, C51_special.1]; rfl
    | inf s =>
      cases s
      · rw [neg_inf, Bool.not_false, C51_special.2.1, C51_special.2.2.1]; simp [Except.map, neg_fin]
      · rw [neg_inf, Bool.not_true, C51_special.2.1, C51_special.2.2.1]; simp [Except.map, neg_fin]
    | fin q z =>
      have e1 : ∀ (q : ℚ) (z : Bool), ¬ (limMin : FV f) > fabs (fin q z) → erf (fin q z : FV f) =
          if (fin q z : FV f) < i 0 then (erf_begin (-fin q z)).map Neg.neg else erf_begin (fin q z) := by
        intro q z h
        rw [erf_def, if_neg (by simp), if_neg (by simp), if_neg (by simp), if_neg h]
      have ht' : ¬ (limMin : FV f) > fabs (-(fin q z)) := by rw [fabs_neg]; exact ht
      rw [e1 q z ht]
      rw [neg_fin] at ht' ⊢
      rw [e1 _ _ ht', ← neg_fin, neg_neg']
      rw [limMin_gt_fabs, not_lt] at ht
      have hq : q ≠ 0 := by rintro rfl; rw [abs_zero] at ht; linarith [minNormal_pos f]
      rcases lt_or_gt_of_ne hq with h | h
      · rw [if_neg (by rw [neg_lt_zero_iff, fin_lt]; linarith), if_pos (by rw [i_zero, fin_lt]; exact h), map_neg_neg]
      · rw [if_pos (by rw [neg_lt_zero_iff, fin_lt]; exact h), if_neg (by rw [i_zero, fin_lt]; linarith)]
  refine ⟨key, ?_⟩
  by_cases ht : (limMin : FV f) > fabs x
  · cases x with
    | nan => exact SameRes.of_eq (by rw [neg_nan, C51_special.1]; rfl)
    | inf s => rw [fabs_inf] at ht; exact absurd ht (by simp [limMin])
    | fin q z =>
      have h := limMin_gt_fabs.1 ht
      rw [C51_special.2.2.2 q z h, neg_fin, C51_special.2.2.2 _ _ (by rwa [abs_neg])]
      simp [SameRes, Except.map, Same, neg_fin]
  · exact SameRes.of_eq (key ht)

theorem erf_same {a b : FV f} (ha : Valid a) (hb : Valid b) (h : a ≃ b) : erf a = erf b := by
  rcases same_valid ha hb h with rfl | ⟨z, w, rfl, rfl⟩
  · rfl
  · rw [C51_special.2.2.2 _ _ (by rw [abs_zero]; exact minNormal_pos f),
      C51_special.2.2.2 _ _ (by rw [abs_zero]; exact minNormal_pos f)]

/-! ## C52 -/

theorem map_bind_neg {r : Res (FV f)} {k : FV f → Res (FV f)} :
    (r.bind k).map Neg.neg = r.bind fun x => (k x).map Neg.neg := by cases r <;> rfl

theorem fmax_eq_or (x y : FV f) : fmax x y = x ∨ fmax x y = y := by unfold fmax; split <;> simp
theorem fmin_eq_or (x y : FV f) : fmin x y = x ∨ fmin x y = y := by unfold fmin; split <;> simp

theorem valid_fmax {x y : FV f} (hx : Valid x) (hy : Valid y) : Valid (fmax x y) := by
  rcases fmax_eq_or x y with h | h <;> rw [h] <;> assumption
theorem valid_fmin {x y : FV f} (hx : Valid x) (hy : Valid y) : Valid (fmin x y) := by
  rcases fmin_eq_or x y with h | h <;> rw [h] <;> assumption

theorem fmin_same {a x y : FV f} (h : x ≃ y) : fmin a x ≃ fmin a y := by
  unfold fmin
  by_cases hc : x > a
  · rw [if_pos hc, if_pos ((Same.lt_iff (Same.refl a) h).1 hc)]
  · rw [if_neg hc, if_neg (fun hh => hc ((Same.lt_iff (Same.refl a) h).2 hh))]; exact h

theorem fmax_same {a x y : FV f} (h : x ≃ y) : fmax a x ≃ fmax a y := by
  unfold fmax
  by_cases hc : x < a
  · rw [if_pos hc, if_pos ((Same.lt_iff h (Same.refl a)).1 hc)]
  · rw [if_neg hc, if_neg (fun hh => hc ((Same.lt_iff h (Same.refl a)).2 hh))]; exact h

theorem d_08 : ∃ q : ℚ, (d 0.8 : FV f) = fin q false ∧ 0 < q := by
  rcases f with ⟨⟨⟩, ⟨⟩⟩
  · exact ⟨13421773/16777216, by decide +kernel, by norm_num⟩
  · exact ⟨0.8, by decide +kernel, by norm_num⟩
  · exact ⟨3602879701896397/4503599627370496, by decide +kernel, by norm_num⟩
  · exact ⟨0.8, by decide +kernel, by norm_num⟩
  · exact ⟨3602879701896397/4503599627370496, by decide +kernel, by norm_num⟩
  · exact ⟨0.8, by decide +kernel, by norm_num⟩

theorem clamp_ne_zero (x : FV f) (z : Bool) : fmax (d 0.8) x ≠ fin 0 z := by
  obtain ⟨q, h, hq⟩ := d_08 (f := f)
  rw [h]
  unfold fmax
  split
  · intro hc; injection hc with h1; linarith
  · next h2 => rintro rfl; rw [fin_lt] at h2; exact h2 hq

/-- the clamped denominator depends on the correction terms only up to the sign of zero -/
theorem halley_same {r r' s s' : FV f} (hr : r' ≃ -r) (hs : s' ≃ -s) : halley r' s' ≃ -halley r s := by
  unfold halley
  have h1 : i 1 - d 0.5 * r' * s' ≃ (i 1 - d 0.5 * r * s : FV f) := by
    refine (Same.refl _).sub ?_
    refine (((Same.refl _).mul hr).mul hs).trans ?_
    rw [mul_neg' (d 0.5) r, neg_mul_neg']
  have h2 := fmax_same (a := (d 0.8 : FV f)) (fmin_same (a := (d 1.2 : FV f)) h1)
  have hv : ∀ a b : FV f, Valid (fmax (d 0.8) (fmin (d 1.2) (i 1 - d 0.5 * a * b))) := fun a b =>
    valid_fmax (valid_d _) (valid_fmin (valid_d _) (valid_sub _ _))
  have h3 : fmax (d 0.8) (fmin (d 1.2) (i 1 - d 0.5 * r' * s')) = fmax (d 0.8) (fmin (d 1.2) (i 1 - d 0.5 * r * s : FV f)) := by
    rcases same_valid (hv r' s') (hv r s) h2 with h | ⟨z, w, h, -⟩
    · exact h
    · exact absurd h (clamp_ne_zero _ _)
  rw [h3, ← FV.neg_div']
  exact Same.div_left hr _

theorem deriv_neg {v v' : FV f} (h : v' ≃ -v) : erf_inv_deriv_1 v' = erf_inv_deriv_1 v := by
  unfold erf_inv_deriv_1
  refine exp_same (valid_mul _ _) (valid_mul _ _) ?_
  refine ((Same.neg h).mul h).trans ?_
  rw [neg_neg', mul_neg', neg_mul']

theorem erf_inv_direc_neg {p v v' e e' : FV f} (d1 : FV f) (h : v' ≃ -v) (he : e' ≃ -e) :
    v' - halley ((e' - -p) / d1) (erf_inv_ratio_val_2 v' d1) ≃ -(v - halley ((e - p) / d1) (erf_inv_ratio_val_2 v d1)) := by
  have h1 : (e' - -p) / d1 ≃ -((e - p) / d1) := by
    rw [← FV.neg_div']
    refine Same.div_left ?_ _
    refine (he.sub (Same.refl _)).trans ?_
    rw [sub_eq_add_neg', sub_eq_add_neg' e]
    exact neg_add_same _ _
  have h2 : erf_inv_ratio_val_2 v' d1 ≃ -erf_inv_ratio_val_2 v d1 := by
    unfold erf_inv_ratio_val_2 erf_inv_deriv_2
    rw [← FV.neg_div']
    refine Same.div_left ?_ _
    rw [← mul_neg' d1, ← mul_neg' (-i 2)]
    exact (Same.refl _).mul ((Same.refl _).mul h)
  refine (h.sub (halley_same h1 h2)).trans ?_
  rw [sub_eq_add_neg', sub_eq_add_neg' v]
  exact neg_add_same _ _

theorem erf_inv_recur_neg (p : FV f) (left : ℕ) :
    ∀ v v' d1 : FV f, Valid v → Valid v' → v' ≃ -v →
      SameRes (erf_inv_recur (-p) left v' d1) ((erf_inv_recur p left v d1).map Neg.neg) := by
  induction left with
  | zero =>
    intro v v' d1 hv hv' h
    unfold erf_inv_recur erf_inv_ratio_val_1
    have he := (C51_odd v).2
    rw [← erf_same hv' hv.neg h] at he
    simp only [bind, Except.bind]
    cases h1 : erf v with
    | error u =>
      rw [h1] at he
      cases h2 : erf v' with
      | error u' => rw [h2] at he; simpa [SameRes, Except.map] using he
      | ok e' => rw [h2] at he; simp [SameRes, Except.map] at he
    | ok e =>
      rw [h1] at he
      cases h2 : erf v' with
      | error u' => rw [h2] at he; simp [SameRes, Except.map] at he
      | ok e' =>
        rw [h2] at he
        exact erf_inv_direc_neg d1 h he
  | succ n ih =>
    intro v v' d1 hv hv' h
    unfold erf_inv_recur erf_inv_ratio_val_1
    have he := (C51_odd v).2
    rw [← erf_same hv' hv.neg h] at he
    simp only [bind, Except.bind]
    cases h1 : erf v with
    | error u =>
      rw [h1] at he
      cases h2 : erf v' with
      | error u' => rw [h2] at he; simpa [SameRes, Except.map] using he
      | ok e' => rw [h2] at he; simp [SameRes, Except.map] at he
    | ok e =>
      rw [h1] at he
      cases h2 : erf v' with
      | error u' => rw [h2] at he; simp [SameRes, Except.map] at he
      | ok e' =>
        rw [h2] at he
        simp only []
        rw [deriv_neg h]
        cases h3 : erf_inv_deriv_1 v with
        | error u => simp [SameRes, Except.map]
        | ok d2 => exact ih _ _ d2 (valid_sub _ _) (valid_sub _ _) (erf_inv_direc_neg d1 h he)

/-- C52: `erf_inv` is odd for every value (up to the sign of a zero result), with the same undefined set. -/
theorem C52_odd (p : FV f) : SameRes (erf_inv (-p)) ((erf_inv p).map Neg.neg) := by
  unfold erf_inv erf_inv_begin
  by_cases hn : p = nan
  · subst hn; rw [neg_nan]; simp [limNaN, SameRes, Except.map]; rfl
  have hn1 : ¬ is_nan p = true := by rw [is_nan_iff]; exact hn
  rw [is_nan_neg, if_neg hn1, if_neg hn1, fabs_neg]
  by_cases h1 : fabs p > i 1
  · rw [if_pos h1, if_pos h1]; simp [limNaN, SameRes, Except.map]; rfl
  rw [if_neg h1, if_neg h1, show i 1 - -p = i 1 + p by rw [sub_eq_add_neg', neg_neg'],
    show i 1 + -p = i 1 - p from rfl]
  have hlog : erf_inv_initial_val (-p) = (erf_inv_initial_val p).map Neg.neg := by
    unfold erf_inv_initial_val
    rw [show i 1 - -p = i 1 + p by rw [sub_eq_add_neg', neg_neg'], show i 1 + -p = i 1 - p from rfl,
      FV.mul_comm' (i 1 + p)]
    simp only [bind, Except.bind]
    cases log ((i 1 - p) * (i 1 + p)) with
    | error u => rfl
    | ok l =>
      simp only []
      cases erf_inv_initial_val_int (-l) with
      | error u => rfl
      | ok v => simp [Except.map, neg_mul']
  have nb : (limMin : FV f) > fabs (i 1 - p) → (limMin : FV f) > fabs (i 1 + p) → False := by
    intro h2 h3
    rw [i_one] at h2 h3
    refine not_both (x := p) (c := 1) (w := false) le_rfl ?_ (by rwa [FV.add_comm'])
    have := (tiny_neg_add p (fin 1 false)).1 (by rwa [FV.add_comm'])
    exact this
  by_cases h2 : (limMin : FV f) > fabs (i 1 - p)
  · have h3 : ¬ (limMin : FV f) > fabs (i 1 + p) := nb h2
    rw [if_neg h3, if_pos h2, if_pos h2]; exact SameRes.of_eq rfl
  rw [if_neg h2, if_neg h2]
  by_cases h3 : (limMin : FV f) > fabs (i 1 + p)
  · rw [if_pos h3, if_pos h3]; exact SameRes.of_eq (by simp [Except.map, limInf])
  rw [if_neg h3, if_neg h3, hlog]
  unfold erf_inv_recur_begin
  simp only [bind, Except.bind]
  cases h4 : erf_inv_initial_val p with
  | error u => exact SameRes.of_eq rfl
  | ok v =>
    simp only [Except.map]
    have hv : Valid v := by
      unfold erf_inv_initial_val at h4
      simp only [bind, Except.bind] at h4
      split at h4
      · cases h4
      · split at h4
        · cases h4
        · injection h4 with h4; rw [← h4]; exact valid_mul _ _
    rw [deriv_neg (Same.refl (-v))]
    cases h5 : erf_inv_deriv_1 v with
    | error u => exact SameRes.of_eq rfl
    | ok d1 => exact erf_inv_recur_neg p _ v (-v) d1 hv hv.neg (Same.refl _)

/-- C52: domain and end points. -/
theorem C52_domain :
    (∀ p : FV f, p = nan ∨ fabs p > fin 1 false → erf_inv p = .ok nan) ∧
    (∀ z, erf_inv (fin 1 z : FV f) = .ok (inf false)) ∧ (∀ z, erf_inv (fin (-1) z : FV f) = .ok (inf true)) := by
  refine ⟨?_, ?_, ?_⟩
  · rintro p (rfl | h)
    · simp [erf_inv, erf_inv_begin, limNaN]
    · unfold erf_inv erf_inv_begin
      rw [i_one, if_pos h]; split <;> rfl
  · intro z
    unfold erf_inv erf_inv_begin
    rw [if_neg (by simp), if_neg, if_pos]
    · rfl
    · rw [i_one, fin_sub, sub_self, mk_zero, limMin_gt_fabs, abs_zero]; exact minNormal_pos f
    · obtain ⟨w, hw⟩ := fabs_fin' (f := f) 1 z
      rw [hw, i_one, gt_iff, fin_lt]; norm_num
  · intro z
    unfold erf_inv erf_inv_begin
    have h2 : (fin 1 false : FV f) - fin (-1) z = fin 2 false := by
      rw [fin_sub_rep]
      · norm_num
      · have := rep_int (f := f) (n := 2) (by have := two_pow_prec f; simp; omega)
        norm_num at this ⊢; exact this
      · exact nov' (by norm_num)
    rw [if_neg (by simp), if_neg, if_neg, if_pos]
    · rfl
    · rw [i_one, fin_add, show (1:ℚ) + -1 = 0 by norm_num, mk_zero, limMin_gt_fabs, abs_zero]; exact minNormal_pos f
    · rw [i_one, h2, limMin_gt_fabs]
      have := minNormal_lt_one f
      norm_num; linarith
    · obtain ⟨w, hw⟩ := fabs_fin' (f := f) (-1) z
      rw [hw, i_one, gt_iff, fin_lt]; norm_num

/-! ## where `erf` is undefined -/

theorem mk_nonneg {q : ℚ} {zs : Bool} (h : 0 ≤ q) : (fin 0 false : FV f) ≤ mk f q zs := by
  unfold mk
  dsimp only
  split
  · rw [fin_le_inf]; simpa using h
  · rw [fin_le]; exact rnd_nonneg h

theorem pos_add {a b : FV f} (ha : Valid a) (h : (fin 0 false : FV f) < a) (h2 : (fin 0 false : FV f) ≤ b) :
    (fin 0 false : FV f) < a + b := by
  cases a with
  | nan => exact absurd h lt_nan
  | inf s =>
    rw [fin_lt_inf] at h; subst h
    cases b with
    | nan => exact absurd h2 le_nan
    | inf t => rw [fin_le_inf] at h2; subst h2; show (fin 0 false : FV f) < inf false; simp
    | fin r w => show (fin 0 false : FV f) < inf false; simp
  | fin q z =>
    rw [fin_lt] at h
    cases b with
    | nan => exact absurd h2 le_nan
    | inf t => rw [fin_le_inf] at h2; subst h2; show (fin 0 false : FV f) < inf false; simp
    | fin r w =>
      rw [fin_le] at h2
      rw [fin_add]
      exact mk_pos (h.trans_le (le_rnd_of_rep ha.rep (by linarith)))

theorem nonneg_div {a b : FV f} (h : (fin 0 false : FV f) ≤ a) (ha : a ≠ inf false)
    (h2 : (fin 0 false : FV f) < b) : (fin 0 false : FV f) ≤ a / b := by
  cases a with
  | nan => exact absurd h le_nan
  | inf s => rw [fin_le_inf] at h; subst h; exact absurd rfl ha
  | fin q z =>
    rw [fin_le] at h
    cases b with
    | nan => exact absurd h2 lt_nan
    | inf t => show (fin 0 false : FV f) ≤ fin 0 _; rw [fin_le]
    | fin r w =>
      rw [fin_lt] at h2
      rw [fin_div h2.ne']
      exact mk_nonneg (div_nonneg h h2.le)

theorem large_cf_pos {x : FV f} (hv : Valid x) (hx : (fin 0 false : FV f) < x) (N : ℕ) (hN : N ≤ 1000) :
    ∀ r : FV f, (fin 0 false : FV f) < r → (fin 0 false : FV f) < whileDown (erf_cf_large_step x) 0 N r := by
  induction N with
  | zero => intro r hr; exact hr
  | succ n ih =>
    intro r hr
    unfold whileDown
    rw [if_pos (by omega)]
    refine ih (by omega) _ ?_
    unfold erf_cf_large_step
    rw [i_small (by rw [abs_of_nonneg (by omega)]; omega)]
    refine pos_add hv hx (nonneg_div ?_ (by simp) hr)
    rw [fin_le]; exact_mod_cast (by omega : (0:ℤ) ≤ 2 * ((n + 1 : ℕ) : ℤ))

theorem erf_begin_error (x : FV f) : (∀ u, exp (-(x * x)) = .error u → erf_begin x = .error u) ∧
    (∀ r, exp (-(x * x)) = .ok r → ∃ r, erf_begin x = .ok r) := by
  unfold erf_begin erf_cf_large_main erf_cf_small_main
  rw [neg_mul']
  constructor
  · intro u h; rw [h]; split_ifs <;> rfl
  · intro r h; rw [h]; split_ifs <;> exact ⟨_, rfl⟩

theorem erf_nontiny {q : ℚ} {z : Bool} (h : minNormal f ≤ |q|) : erf (fin q z : FV f) =
    if (fin q z : FV f) < i 0 then (erf_begin (-fin q z)).map Neg.neg else erf_begin (fin q z) := by
  rw [erf_def, if_neg (by simp), if_neg (by simp), if_neg (by simp), if_neg]
  rw [limMin_gt_fabs, not_lt]; exact h

theorem i_2_63 : (i (2 ^ 63) : FV f) = fin (2 ^ 63) false := by
  have h : Is (i (2 ^ 63) : FV f) (2 ^ 63) := by
    unfold i
    have hr : Rep f ((2 ^ 63 : ℤ) : ℚ) := by
      have := rep_pow2_nat (f := f) (n := 63); push_cast; exact this
    have := is_mk (f := f) (q := ((2 ^ 63 : ℤ) : ℚ)) (zs := false) (by rw [hr]; exact nov' (by norm_num))
    rw [hr] at this
    push_cast at this ⊢; exact this
  have hv : Valid (i (2 ^ 63) : FV f) := valid_i _
  obtain ⟨z, hz⟩ := h
  rw [hz] at hv ⊢
  rw [hv.z_false (by norm_num)]

/-- C51 (`float`, `double`): `erf(x)` is undefined exactly when the computed `x*x` is finite
and exceeds `2^63` (so `|x|` above about 3.04e9); it is defined everywhere else, in particular where
`x*x` overflows. -/
theorem C51_undefined (hf : f.exact = false) (ht : f.ty ≠ .ldouble) (x : FV f) (hx : Valid x) :
    (erf x = .error .castRange ↔ (i (2 ^ 63) < x * x ∧ x * x < inf false)) ∧
    (¬ (i (2 ^ 63) < x * x ∧ x * x < inf false) → ∃ r, erf x = .ok r) := by
  have key : (erf x = .error .castRange ∧ (i (2 ^ 63) < x * x ∧ x * x < inf false)) ∨
      ((∃ r, erf x = .ok r) ∧ ¬ (i (2 ^ 63) < x * x ∧ x * x < inf false)) := by
    rw [i_2_63]
    cases x with
    | nan => exact Or.inr ⟨⟨_, C51_special.1⟩, by simp⟩
    | inf s =>
      right
      refine ⟨by cases s; exact ⟨_, C51_special.2.1⟩; exact ⟨_, C51_special.2.2.1⟩, ?_⟩
      show ¬ (_ ∧ (inf (s ^^ s) : FV f) < inf false)
      simp
    | fin q z =>
      rcases lt_or_ge |q| (minNormal f) with h | h
      · right
        refine ⟨⟨_, C51_special.2.2.2 q z h⟩, ?_⟩
        have hm := minNormal_lt_one f
        have hq : |q * q| ≤ 1 := by rw [abs_mul]; nlinarith [abs_nonneg q]
        have h1 : |rnd f (q * q)| ≤ 1 := by
          have := abs_rnd_le_of_rep (f := f) (q := q * q) (r := 1) rep_one (by simpa using hq)
          simpa using this
        rw [fin_mul, mk_fin (overflows_small (by linarith)), fin_lt]
        rintro ⟨h2, -⟩
        have := (abs_le.1 h1).2
        linarith [show (1:ℚ) < 2 ^ 63 by norm_num]
      · have hsq : (-fin q z : FV f) * (-fin q z) = fin q z * fin q z := neg_mul_neg' _ _
        have e1 := erf_begin_error (fin q z : FV f)
        have e2 := erf_begin_error (-fin q z : FV f)
        rw [hsq] at e2
        rw [erf_nontiny h]
        have hvy : Valid ((fin q z : FV f) * fin q z) := valid_mul _ _
        have hpos : ∃ zs, (fin q z : FV f) * fin q z = mk f (q * q) zs := ⟨_, fin_mul _ _ _ _⟩
        have hnn : (fin 0 false : FV f) ≤ (fin q z : FV f) * fin q z := by
          obtain ⟨zs, hz⟩ := hpos; rw [hz]; exact mk_nonneg (mul_self_nonneg q)
        cases hy : (fin q z : FV f) * fin q z with
        | nan => rw [hy] at hnn; exact absurd hnn le_nan
        | inf s =>
          rw [hy, fin_le_inf] at hnn; subst hnn
          right
          refine ⟨?_, by simp⟩
          rw [hy, neg_inf, Bool.not_false] at e1 e2
          obtain ⟨r1, h1⟩ := e1.2 _ C30_special.2.1
          obtain ⟨r2, h2⟩ := e2.2 _ C30_special.2.1
          rw [h1, h2]; split_ifs <;> exact ⟨_, rfl⟩
        | fin r w =>
          rw [hy] at hnn hvy e1 e2
          rw [fin_le] at hnn
          have hv2 := hvy.neg
          rw [neg_fin] at hv2
          obtain ⟨a1, a2⟩ := C30_undefined hf ht _ _ hv2
          rw [neg_fin] at e1 e2
          by_cases hr : 2 ^ 63 < r
          · left
            have := a1.2 (Or.inl (by linarith))
            rw [e1.1 _ this, e2.1 _ this]
            refine ⟨by split_ifs <;> rfl, by rw [fin_lt]; exact hr, by simp⟩
          · right
            obtain ⟨r0, h0⟩ := a2 (by push Not; push Not at hr; constructor <;> linarith)
            obtain ⟨r1, h1⟩ := e1.2 _ h0
            obtain ⟨r2, h2⟩ := e2.2 _ h0
            rw [h1, h2]
            refine ⟨by split_ifs <;> exact ⟨_, rfl⟩, by rw [fin_lt]; exact fun h => hr h.1⟩
  rcases key with ⟨h1, h2⟩ | ⟨⟨r, h1⟩, h2⟩
  · exact ⟨⟨fun _ => h2, fun _ => h1⟩, fun h => absurd h2 h⟩
  · exact ⟨⟨fun h => by rw [h1] at h; simp at h, fun h => absurd h h2⟩, fun _ => ⟨r, h1⟩⟩

theorem d_21 : ∃ q : ℚ, (d 2.1 : FV f) = fin q false ∧ 2 ≤ q ∧ q < 2.2 := by
  rcases f with ⟨⟨⟩, ⟨⟩⟩
  · exact ⟨4404019/2097152, by decide +kernel, by norm_num, by norm_num⟩
  · exact ⟨2.1, by decide +kernel, by norm_num, by norm_num⟩
  · exact ⟨4728779608739021/2251799813685248, by decide +kernel, by norm_num, by norm_num⟩
  · exact ⟨2.1, by decide +kernel, by norm_num, by norm_num⟩
  · exact ⟨4728779608739021/2251799813685248, by decide +kernel, by norm_num, by norm_num⟩
  · exact ⟨2.1, by decide +kernel, by norm_num, by norm_num⟩

theorem SQRT_PI_val : ∃ c, (L SQRT_PI : FV f) = fin c false ∧ 1 ≤ c ∧ c ≤ 2 := by
  obtain ⟨c, h, a, b⟩ := L_bounds (f := f) (q := SQRT_PI) (a := 1) (b := 2) (by norm_num [SQRT_PI])
    (by norm_num [SQRT_PI]) (by norm_num) (by norm_num)
  exact ⟨c, h, by simpa using a, by simpa using b⟩

/-- C51: where `x*x` overflows the result is exactly `1`. -/
theorem C51_overflow (x : FV f) (h0 : (fin 0 false : FV f) < x) (h : x * x = inf false) :
    erf x = .ok (fin 1 false) := by
  cases x with
  | nan => exact absurd h0 lt_nan
  | inf s => rw [fin_lt_inf] at h0; subst h0; exact C51_special.2.1
  | fin q z =>
    rw [fin_lt] at h0
    have big : 4 < q := by
      by_contra hc
      push Not at hc
      rw [fin_mul, mk_fin (nov (by rw [abs_of_nonneg (by positivity)]; nlinarith [show (16:ℚ) ≤ 2 ^ 127 by norm_num]))] at h
      simp at h
    have hm := minNormal_lt_one f
    rw [erf_nontiny (by rw [abs_of_pos h0]; linarith), if_neg (by rw [i_zero, fin_lt]; linarith)]
    obtain ⟨c, hc, c1, c2⟩ := d_21 (f := f)
    obtain ⟨s, hs, s1, s2⟩ := SQRT_PI_val (f := f)
    unfold erf_begin erf_cf_large_main
    rw [hc, if_pos (by rw [gt_iff, fin_lt]; norm_num at c2; linarith), neg_mul', h, neg_inf, Bool.not_false, C30_special.2.1]
    simp only [bind, Except.bind]
    have hcf : (fin 0 false : FV f) < erf_cf_large_recur (i 2 * fin q z) 1 := by
      have hp : (fin 0 false : FV f) < i 2 * fin q z := by
        rw [i_two, fin_mul]
        refine mk_pos ?_
        have := le_rnd_of_rep (f := f) (q := 2 * q) rep_one (by linarith)
        linarith
      exact large_cf_pos (valid_mul _ _) hp _ (by decide) _ hp
    have hz : (i 2 * ((fin 0 false : FV f) / L SQRT_PI)) = fin 0 false := by
      rw [hs, fin_div (by linarith), zero_div, mk_zero, i_two, fin_mul, mul_zero, mk_zero]
      have hsg : sign (fin s false : FV f) = false := by rw [sign, if_neg (by linarith)]; simp; linarith
      rw [hsg]; simp [sign]
    rw [hz]
    have : ∃ w, (fin 0 false : FV f) / erf_cf_large_recur (i 2 * fin q z) 1 = fin 0 w := by
      cases hr : erf_cf_large_recur (i 2 * fin q z : FV f) 1 with
      | nan => rw [hr] at hcf; exact absurd hcf lt_nan
      | inf t => exact ⟨_, rfl⟩
      | fin r w =>
        rw [hr, fin_lt] at hcf
        rw [fin_div hcf.ne', zero_div, mk_zero]; exact ⟨_, rfl⟩
    obtain ⟨w, hw⟩ := this
    rw [hw, i_one, fin_sub, sub_zero, mk_of_rep rep_one (nov' (by norm_num))]
    simp

example : erf (d 1e10 : FV binary64) = .error .castRange :=
  (C51_undefined rfl (by decide) _ (by decide +kernel)).1.2 (by decide +kernel)
example : erf (d 1e200 : FV binary64) = .ok (fin 1 false) ∧
    erf (d 0.5 : FV binary64) = .ok (fin (2344123055765225/4503599627370496) false) := by decide +kernel

example : SameRes (erf_inv (-d 0.5 : FV binary64)) ((erf_inv (d 0.5)).map Neg.neg) := C52_odd _
example : erf_inv (d 1.5 : FV binary32) = .ok nan := C52_domain.1 _ (Or.inr (by decide +kernel))

end Gcem.Props
