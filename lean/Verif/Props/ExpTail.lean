import Verif.Props.ExpAcc

/-!
# C70: `exp` outside the range of normal results — overflow and underflow
-/

namespace Gcem.Props
open Gcem FV
variable {f : Fmt}

/-! ## powers of a base that is at least one -/

theorem one_le_mul {a b : FV f} (ha : (fin 1 false : FV f) ≤ a) (hb : (fin 1 false : FV f) ≤ b) :
    (fin 1 false : FV f) ≤ a * b := by
  cases a with
  | nan => exact absurd ha le_nan
  | inf s =>
    rw [fin_le_inf] at ha; subst ha
    cases b with
    | nan => exact absurd hb le_nan
    | inf t => rw [fin_le_inf] at hb; subst hb; show _ ≤ FV.mul _ _; simp [FV.mul]
    | fin r w =>
      rw [fin_le] at hb
      have h0 : r ≠ 0 := by intro h; rw [h] at hb; norm_num at hb
      have hs : sign (fin r w : FV f) = false := by rw [sign, if_neg h0]; simp; linarith
      show _ ≤ FV.mul _ _
      simp only [FV.mul, h0, if_false, hs]; simp
  | fin q z =>
    rw [fin_le] at ha
    cases b with
    | nan => exact absurd hb le_nan
    | inf t =>
      rw [fin_le_inf] at hb; subst hb
      have h0 : q ≠ 0 := by intro h; rw [h] at ha; norm_num at ha
      have hs : sign (fin q z : FV f) = false := by rw [sign, if_neg h0]; simp; linarith
      show _ ≤ FV.mul _ _
      simp only [FV.mul, h0, if_false, hs]; simp
    | fin r w =>
      rw [fin_le] at hb
      rw [fin_mul]
      have h1 : 1 ≤ q * r := by nlinarith
      have h2 := le_rnd_of_rep (f := f) (q := q * r) rep_one h1
      rcases h : overflows f (rnd f (q * r)) with _ | _
      · rw [mk_fin h, fin_le]; exact h2
      · unfold mk
        simp only [h, if_true]
        rw [fin_le_inf]; simp; linarith

theorem recur_ge_one (n : ℕ) : ∀ (b v : FV f), (fin 1 false : FV f) ≤ b → (fin 1 false : FV f) ≤ v →
    (fin 1 false : FV f) ≤ pow_integral_compute_recur b v n := by
  induction n using Nat.strong_induction_on with
  | _ n ih =>
    intro b v hb hv
    rw [pow_integral_compute_recur]
    split_ifs with h1 h2 h3
    · exact ih _ (by omega) _ _ (one_le_mul hb hb) (one_le_mul hv hb)
    · exact ih _ (by omega) _ _ (one_le_mul hb hb) hv
    · exact one_le_mul hv hb
    · exact hv

theorem nonneg_ge_one {b : FV f} (hb : (fin 1 false : FV f) ≤ b) (n hi : ℕ) :
    (fin 1 false : FV f) ≤ pow_integral_nonneg b n hi := by
  unfold pow_integral_nonneg
  split_ifs
  · exact one_le_mul (one_le_mul hb hb) hb
  · exact one_le_mul hb hb
  · exact hb
  · rw [i_one]; simp
  · simp [limInf]
  · exact recur_ge_one n _ _ hb (by rw [i_one]; simp)

/-- the computed power of the stored `e`: infinite or at least `2.71828^n` -/
theorem pow_E_ge (n : ℕ) : pow_integral_nonneg (L GCEM_E : FV x87) n (2 ^ 63 - 1) = inf false ∨
    ∃ p w, pow_integral_nonneg (L GCEM_E : FV x87) n (2 ^ 63 - 1) = fin p w ∧ (271828 / 100000 : ℚ) ^ n ≤ p ∧
      p < pow2 x87.emax := by
  rw [L_E']
  have c1 : 1 ≤ cE := by decide +kernel
  have hge : (fin 1 false : FV x87) ≤ fin cE false := by rw [fin_le]; exact c1
  by_cases hn : n = 2 ^ 63 - 1
  · left
    subst hn
    unfold pow_integral_nonneg
    norm_num [limInf]
  have h1 := nonneg_ge_one hge n (2 ^ 63 - 1)
  have hg := nonneg_good (f := x87) (hi := 2 ^ 63 - 1) rfl (show Valid (fin cE false : FV x87) by decide +kernel)
    (by linarith) (n := n) (Or.inl (by rw [abs_of_pos (by linarith)]; exact c1)) hn
  rcases hg with ⟨s, hs⟩ | ⟨r, w, e, -, e2, -, ⟨θ, e3, e4, -⟩, -⟩
  · left
    rw [hs] at h1 ⊢
    rw [fin_le_inf] at h1; rw [h1]
  · right
    refine ⟨r, w, e, ?_, ?_⟩
    · have hu := uro_pos x87
      have hu1 := uro_lt x87
      have h3 : (1 - uro x87) ^ n ≤ θ := (pow_le_pow_of_le_one (by linarith) (by linarith) (by omega)).trans e4
      have h4 : (271828 / 100000 : ℚ) ≤ cE * (1 - uro x87) := by decide +kernel
      calc (271828 / 100000 : ℚ) ^ n ≤ (cE * (1 - uro x87)) ^ n := pow_le_pow_left₀ (by norm_num) h4 n
        _ = cE ^ n * (1 - uro x87) ^ n := mul_pow _ _ _
        _ ≤ cE ^ n * θ := mul_le_mul_of_nonneg_left h3 (by positivity)
        _ = r := e3.symm
    · rw [overflows_false_iff] at e2
      rcases e2 with h | h
      · exact absurd h (by decide)
      · exact (le_abs_self r).trans_lt h

/-! ## underflow -/

theorem ldbl_x87 (hf : f.exact = false) : f.ldbl = x87 := by rcases f with ⟨_, _⟩; simp_all [Fmt.ldbl]

theorem mk_nn {q : ℚ} {zs : Bool} (h0 : 0 ≤ q) (hz : q = 0 → zs = false) (ho : overflows f (rnd f q) = false) :
    mk f q zs = fin (rnd f q) false := by
  rw [mk_fin ho]
  rcases h0.eq_or_lt with h | h
  · rw [hz h.symm]; simp [← h]
  · simp [h.ne', not_lt.2 h.le]

/-- the value of `exp` for arguments below `-2`: `p` is the power of `e` in `long double`, `c` the factor for the
fractional part. -/
theorem exp_neg_le (hf : f.exact = false) {q : ℚ} {z : Bool} {v : FV f} (hx : Valid (fin q z : FV f)) (h2 : q ≤ -2)
    (hv : exp (fin q z : FV f) = .ok v) {n : ℕ} (hn : (n : ℚ) + 1 / 2 ≤ -q) {b : ℚ} (hb' : Rep x87 b) (b0 : 0 ≤ b)
    (b1 : b ≤ 1) (hpow : 1 ≤ b * (271828 / 100000 : ℚ) ^ n ∨ pow2 x87.emax ≤ (271828 / 100000 : ℚ) ^ n) :
    ∃ c : ℚ, 0 < c ∧ c ≤ 8 ∧ ∃ p : ℚ, 0 ≤ p ∧ p ≤ b ∧ v = fin (rnd f (rnd f p * c)) false := by
  have ha : 2 ≤ |q| := by rw [abs_of_neg (by linarith)]; linarith
  obtain ⟨-, w1, w2⟩ := wholeOf_bounds q
  by_cases hW : -2 ^ 63 ≤ wholeOf q ∧ wholeOf q ≤ 2 ^ 63 - 1
  swap
  · rw [exp_large_ub hf hx ha hW] at hv; simp at hv
  obtain ⟨w, hw⟩ := exp_large_ok hf hx ha hW
  rw [hw, Except.ok.injEq] at hv
  have hfr : |q - wholeOf q| ≤ 2 := by rw [abs_le]; constructor <;> linarith
  obtain ⟨c, c1, c2, c3, c4⟩ := exp_cf_rel (f := f) (z := w) hfr
  rw [c1, ldbl_x87 hf] at hv
  -- the reciprocal power
  have hWn : wholeOf q ≤ -(n : ℤ) := by
    have : (wholeOf q : ℚ) ≤ ((-(n:ℤ) : ℤ) : ℚ) := by push_cast; linarith
    exact_mod_cast this
  have hneg : wholeOf q < 0 := by
    have : (wholeOf q : ℚ) < ((0 : ℤ) : ℚ) := by push_cast; linarith
    exact_mod_cast this
  have hp : ∃ p zz, pow_integral_llint (L GCEM_E : FV x87) (wholeOf q) = fin p zz ∧ 0 ≤ p ∧ p ≤ b ∧ (p = 0 → zz = false) := by
    unfold pow_integral_llint pow_integral_compute
    rw [if_pos hneg]
    split_ifs with hlo
    · exact ⟨0, false, i_zero, le_rfl, b0, fun _ => rfl⟩
    · rcases pow_E_ge (-wholeOf q).toNat with h | ⟨p, zz, h, p1, p2⟩
      · rw [h, i_one]
        exact ⟨0, false, rfl, le_rfl, b0, fun _ => rfl⟩
      · have pp : 0 < p := lt_of_lt_of_le (by positivity) p1
        rw [h, i_one, fin_div pp.ne']
        have hpn : (271828 / 100000 : ℚ) ^ n ≤ p :=
          (pow_le_pow_right₀ (by norm_num) (by omega)).trans p1
        have h1 : 1 / p ≤ b := by
          rw [div_le_iff₀ pp]
          rcases hpow with hpow | hpow
          · exact hpow.trans (mul_le_mul_of_nonneg_left hpn b0)
          · linarith
        have h0 : 0 < 1 / p := by positivity
        have r1 := rnd_le_of_rep hb' h1
        have r0 := rnd_nonneg (f := x87) h0.le
        rw [mk_nn h0.le (fun h => absurd h h0.ne') (overflows_small (by rw [abs_of_nonneg r0]; linarith))]
        exact ⟨_, _, rfl, r0, r1, fun _ => rfl⟩
  obtain ⟨p, zz, hp1, p0, pb, pz⟩ := hp
  rw [hp1] at hv
  have r1 := rnd_le_of_rep (f := f) rep_one (pb.trans b1)
  have r0 := rnd_nonneg (f := f) p0
  have hcast : cast f (fin p zz : FV x87) = fin (rnd f p) false :=
    mk_nn p0 pz (overflows_small (by rw [abs_of_nonneg r0]; linarith))
  rw [hcast, fin_mul] at hv
  have c8 : c ≤ 8 := by
    have h1 := c4.le
    have h2 : Real.exp ((q - wholeOf q : ℚ) : ℝ) ≤ Real.exp 2 := by
      apply Real.exp_le_exp.2
      have := (Rat.cast_le (K := ℝ)).2 (abs_le.1 hfr).2
      push_cast at this ⊢; exact this
    have h3 : Real.exp 2 ≤ 739 / 100 := by
      have := Real.exp_one_lt_d9
      have e : Real.exp 2 = Real.exp 1 * Real.exp 1 := by rw [← Real.exp_add]; norm_num
      rw [e]; nlinarith [Real.exp_pos 1]
    have hu := uro_pos_real f
    have hu1 := uro_le f
    have h4 : (c : ℝ) ≤ 8 := by
      have := Real.exp_pos ((q - wholeOf q : ℚ) : ℝ)
      nlinarith
    exact_mod_cast h4
  have hpc : 0 ≤ rnd f p * c := mul_nonneg r0 c3.le
  have hsc : sign (fin c false : FV f) = false := by rw [sign, if_neg c3.ne']; simp; exact c3.le
  refine ⟨c, c3, c8, p, p0, pb, ?_⟩
  rw [← hv]
  refine mk_nn hpc ?_ (nov (by rw [abs_of_nonneg hpc]; nlinarith [show (8:ℚ) ≤ 2 ^ 127 by norm_num]))
  intro h
  have h' : rnd f p = 0 := by
    rcases mul_eq_zero.1 h with h | h
    · exact h
    · exact absurd h c3.ne'
  rw [hsc, h']; simp [sign]

/-- arguments at or below `-expUnder` give zero -/
def expUnder : FTy → ℕ | .float => 105 | .double => 747 | .ldouble => 11358

theorem rnd_eq_zero {p b : ℚ} (h0 : 0 ≤ p) (h : p ≤ b) (hb : rnd f b = 0) : rnd f p = 0 :=
  le_antisymm ((rnd_mono h).trans hb.le) (rnd_nonneg h0)

/-- C70: wherever it is defined, `exp` of an argument at or below `-105` (`float`), `-747` (`double`) or `-11358`
(`long double`) is exactly `+0`. -/
theorem C70_underflow (hf : f.exact = false) (q : ℚ) (z : Bool) (hx : Valid (fin q z : FV f))
    (hq : q ≤ -(expUnder f.ty : ℚ)) (v : FV f) (hv : exp (fin q z : FV f) = .ok v) : v = fin 0 false := by
  obtain ⟨ty, ex⟩ := f
  cases (show ex = false from hf)
  cases ty
  · have hq' : q ≤ -105 := by simpa [expUnder] using hq
    obtain ⟨c, -, -, p, p0, p1, h⟩ := exp_neg_le rfl hx (by linarith) hv (n := 104) (by push_cast; linarith)
      (b := 1 / 2 ^ 150) (by unfold Rep; decide +kernel) (by norm_num) (by norm_num) (Or.inl (by decide +kernel))
    rw [h, rnd_eq_zero p0 p1 (by decide +kernel), zero_mul, rnd_zero]
  · have hq' : q ≤ -747 := by simpa [expUnder] using hq
    obtain ⟨c, -, -, p, p0, p1, h⟩ := exp_neg_le rfl hx (by linarith) hv (n := 746) (by push_cast; linarith)
      (b := 1 / 2 ^ 1075) (by unfold Rep; decide +kernel) (by positivity) (by
        rw [div_le_one (by positivity)]; exact one_le_pow₀ (by norm_num)) (Or.inl (by decide +kernel))
    rw [h, rnd_eq_zero p0 p1 (by decide +kernel), zero_mul, rnd_zero]
  · have hq' : q ≤ -11358 := by simpa [expUnder] using hq
    obtain ⟨c, -, -, p, p0, p1, h⟩ := exp_neg_le rfl hx (by linarith) hv (n := 11357) (by push_cast; linarith)
      (b := 0) (rnd_zero _) le_rfl zero_le_one (Or.inr (by decide +kernel))
    rw [h, rnd_eq_zero p0 p1 (rnd_zero _), zero_mul, rnd_zero]

theorem exp_two_le : Real.exp 2 ≤ 739 / 100 := by
  have := Real.exp_one_lt_d9
  have e : Real.exp 2 = Real.exp 1 * Real.exp 1 := by rw [← Real.exp_add]; norm_num
  rw [e]; nlinarith [Real.exp_pos 1]

/-- C70 (`float`, `double`): gradual underflow.  For every argument below `-2` for which it is defined, `exp` is a
nonnegative finite value whose error is at most `105 u e^x` plus five times the least positive subnormal value. -/
theorem C70_gradual (hf : f.exact = false) (ht : f.ty ≠ .ldouble) (q : ℚ) (z : Bool) (hx : Valid (fin q z : FV f))
    (hq : q ≤ -2) (v : FV f) (hv : exp (fin q z : FV f) = .ok v) :
    ∃ r, v = fin r false ∧ 0 ≤ r ∧
      |(r : ℝ) - Real.exp q| ≤ 105 * (1 / 2 ^ f.prec) * Real.exp q + 5 * (pow2 f.emin : ℝ) := by
  have hEq := Real.exp_pos (q : ℝ)
  have hu := uro_pos_real f
  have hu1 := uro_le f
  have m0 : (0:ℝ) < pow2 f.emin := by exact_mod_cast pow2_pos f.emin
  rw [← uro_eq]
  rcases lt_or_ge q (-1000) with h | h
  · have hz := C70_underflow hf q z hx (by
      have : expUnder f.ty ≤ 747 := by
        rcases f with ⟨⟨⟩, _⟩ <;> simp [expUnder] at ht ⊢
      have : (expUnder f.ty : ℚ) ≤ 747 := by exact_mod_cast this
      linarith) v hv
    refine ⟨0, hz, le_rfl, ?_⟩
    rw [Rat.cast_zero, zero_sub, abs_neg, abs_of_pos hEq]
    have h1 : Real.exp q ≤ Real.exp (-1000) := by
      apply Real.exp_le_exp.2
      have := (Rat.cast_le (K := ℝ)).2 h.le
      push_cast at this; exact this
    have h2 : Real.exp (-1000) ≤ pow2 f.emin := by
      have e1 : Real.exp (-1000) = (Real.exp 1 ^ 1000)⁻¹ := by
        rw [Real.exp_neg, ← Real.exp_nat_mul]; norm_num
      rw [e1]
      have h3 : (2:ℝ) ^ 1000 * 2 ^ 300 ≤ Real.exp 1 ^ 1000 := by
        have a1 : (25 / 10 : ℝ) ^ 1000 ≤ Real.exp 1 ^ 1000 :=
          pow_le_pow_left₀ (by norm_num) (by have := Real.exp_one_gt_d9; linarith) _
        refine le_trans ?_ a1
        have a2 : (2:ℚ) ^ 1000 * 2 ^ 300 ≤ (25 / 10 : ℚ) ^ 1000 := by decide +kernel
        have := (Rat.cast_le (K := ℝ)).2 a2
        push_cast at this; exact this
      have h4 : (1:ℚ) / (2 ^ 1000 * 2 ^ 300) ≤ pow2 f.emin := by
        rcases f with ⟨⟨⟩, ⟨⟩⟩ <;> first | exact absurd rfl ht | decide +kernel
      have h4' := (Rat.cast_le (K := ℝ)).2 h4
      push_cast at h4'
      refine le_trans ?_ h4'
      rw [one_div]
      exact inv_anti₀ (by positivity) h3
    have := mul_nonneg (mul_nonneg (by norm_num : (0:ℝ) ≤ 105) hu.le) hEq.le
    linarith
  have ha : 2 ≤ |q| := by rw [abs_of_neg (by linarith)]; linarith
  obtain ⟨-, w1, w2⟩ := wholeOf_bounds q
  have i1 : -1002 ≤ wholeOf q := by
    have : ((-1003 : ℤ) : ℚ) < wholeOf q := by push_cast; linarith
    have : -1003 < wholeOf q := by exact_mod_cast this
    omega
  have i2 : wholeOf q ≤ -1 := by
    have : (wholeOf q : ℚ) < ((0 : ℤ) : ℚ) := by push_cast; linarith
    have : wholeOf q < 0 := by exact_mod_cast this
    omega
  obtain ⟨w, hw⟩ := exp_large_ok hf hx ha (by constructor <;> omega)
  rw [hw, Except.ok.injEq] at hv
  have hfr : |q - wholeOf q| ≤ 2 := by rw [abs_le]; constructor <;> linarith
  obtain ⟨c, c1, c2, c3, c4⟩ := exp_cf_rel (f := f) (z := w) hfr
  obtain ⟨p, zp, p1, p2, p3⟩ := pow_E (wholeOf q) (by omega) (by omega)
  rw [c1, ldbl_x87 hf, p1] at hv
  have hA : Real.exp ((q - wholeOf q : ℚ) : ℝ) ≤ 739 / 100 := by
    refine le_trans ?_ exp_two_le
    apply Real.exp_le_exp.2
    have := (Rat.cast_le (K := ℝ)).2 (abs_le.1 hfr).2
    push_cast at this ⊢; exact this
  have ha1 : Real.exp (wholeOf q : ℝ) ≤ 1 := Real.exp_le_one_iff.2 (by
    have : ((wholeOf q : ℤ) : ℝ) ≤ ((-1 : ℤ) : ℝ) := by exact_mod_cast i2
    push_cast at this; linarith)
  have hE : Real.exp (wholeOf q : ℝ) * Real.exp ((q - wholeOf q : ℚ) : ℝ) = Real.exp q := by
    rw [← Real.exp_add]; push_cast; congr 1; ring
  have hWb : |((wholeOf q : ℤ) : ℝ)| ≤ 1002 := by
    have : |wholeOf q| ≤ 1002 := by rw [abs_le]; constructor <;> omega
    exact_mod_cast this
  have u64 : 2048 * (1 / 2 ^ 64 : ℝ) ≤ uro f := by
    have : 2048 * (1 / 2 ^ 64 : ℚ) ≤ uro f := by
      rcases f with ⟨⟨⟩, ⟨⟩⟩ <;> first | exact absurd rfl ht | decide +kernel
    have := (Rat.cast_le (K := ℝ)).2 this
    push_cast at this; exact this
  rw [u87] at p3
  have ap := Real.exp_pos (wholeOf q : ℝ)
  have Ap := Real.exp_pos ((q - wholeOf q : ℚ) : ℝ)
  have p4 : RelR (p : ℝ) (Real.exp (wholeOf q : ℝ)) (99 / 100 * uro f) := p3.mono ap (by nlinarith)
  have c5 : RelR (c : ℝ) (Real.exp ((q - wholeOf q : ℚ) : ℝ)) (10121 / 100 * uro f) := c4.mono Ap (by
    norm_num at u64 ⊢; linarith)
  generalize Real.exp (wholeOf q : ℝ) = a at *
  generalize Real.exp ((q - wholeOf q : ℚ) : ℝ) = A at *
  generalize hEE : Real.exp (q : ℝ) = E at *
  have e1 := (Rat.cast_le (K := ℝ)).2 (rnd_err_all (f := f) p)
  rw [abs_of_pos p2] at e1
  have pr0 : (0:ℝ) < p := by exact_mod_cast p2
  have cr0 : (0:ℝ) < c := by exact_mod_cast c3
  have ple := p4.le
  have cle := c5.le
  have r0 := rnd_nonneg (f := f) p2.le
  have p8 : p ≤ 2 := by
    have : (p:ℝ) ≤ 2 := by nlinarith
    exact_mod_cast this
  have r8 : rnd f p ≤ 2 := rnd_le_of_rep (f := f) (by have := rep_pow2_nat (f := f) (n := 1); norm_num at this; exact this) p8
  have c8 : c ≤ 8 := by
    have : (c:ℝ) ≤ 8 := by nlinarith
    exact_mod_cast this
  have hpc : 0 ≤ rnd f p * c := mul_nonneg r0 c3.le
  have e2 := (Rat.cast_le (K := ℝ)).2 (rnd_err_all (f := f) (rnd f p * c))
  rw [abs_of_nonneg hpc] at e2
  have hcast : cast f (fin p zp : FV x87) = fin (rnd f p) false :=
    mk_nn p2.le (fun h => absurd h p2.ne') (nov (by rw [abs_of_pos p2]; exact p8.trans (by norm_num)))
  have hsc : sign (fin c false : FV f) = false := by rw [sign, if_neg c3.ne']; simp; exact c3.le
  have hval : v = fin (rnd f (rnd f p * c)) false := by
    rw [← hv, hcast, fin_mul]
    refine mk_nn hpc ?_ (nov (by rw [abs_of_nonneg hpc]; nlinarith [show (16:ℚ) ≤ 2 ^ 127 by norm_num]))
    intro h
    have h' : rnd f p = 0 := by
      rcases mul_eq_zero.1 h with h | h
      · exact h
      · exact absurd h c3.ne'
    rw [hsc, h']; simp [sign]
  refine ⟨_, hval, rnd_nonneg hpc, ?_⟩
  have r0r : (0:ℝ) ≤ (rnd f p : ℚ) := by exact_mod_cast r0
  push_cast at e1 e2
  generalize ((rnd f (rnd f p * c) : ℚ) : ℝ) = r at *
  generalize ((rnd f p : ℚ) : ℝ) = p' at *
  generalize ((pow2 f.emin : ℚ) : ℝ) = m at *
  generalize ((uro f : ℚ) : ℝ) = u at *
  have s1 : |p' - a| ≤ 2 * u * a + m / 2 := by
    have e : p' - a = (p' - p) + (p - a) := by ring
    rw [e]
    refine (abs_add_le _ _).trans ((add_le_add e1 p4).trans ?_)
    nlinarith [mul_pos hu ap]
  have s2 : |p' * c - E| ≤ 10323 / 100 * u * E + 37 / 10 * m := by
    have e : p' * c - E = (p' - a) * c + a * (c - A) := by rw [← hE]; ring
    rw [e]
    have t1 : |(p' - a) * c| ≤ (2 * u * a + m / 2) * c := by
      rw [abs_mul, abs_of_pos cr0]; exact mul_le_mul_of_nonneg_right s1 cr0.le
    have t2 : |a * (c - A)| ≤ a * (10121 / 100 * u * A) := by
      rw [abs_mul, abs_of_pos ap]; exact mul_le_mul_of_nonneg_left c5 ap.le
    refine (abs_add_le _ _).trans ((add_le_add t1 t2).trans ?_)
    have c7 : (c:ℝ) ≤ 74 / 10 := by nlinarith
    have t3 : 2 * u * a * c ≤ 2 * u * a * ((1 + 10121 / 100 * u) * A) := mul_le_mul_of_nonneg_left cle (by positivity)
    have t4 : 2 * u * a * ((1 + 10121 / 100 * u) * A) ≤ 2 * u * a * (1001 / 1000 * A) := by
      refine mul_le_mul_of_nonneg_left (mul_le_mul_of_nonneg_right (by linarith) Ap.le) (by positivity)
    have t5 : m / 2 * c ≤ m / 2 * (74 / 10) := mul_le_mul_of_nonneg_left c7 (by positivity)
    have t6 : 0 ≤ u * E := by positivity
    rw [← hE] at t6 ⊢
    nlinarith
  have s3 : p' * c ≤ E + (10323 / 100 * u * E + 37 / 10 * m) := by
    have := (abs_le.1 s2).2; linarith
  have e : r - E = (r - p' * c) + (p' * c - E) := by ring
  rw [e]
  refine (abs_add_le _ _).trans ((add_le_add e2 s2).trans ?_)
  have s4 := mul_le_mul_of_nonneg_left s3 hu.le
  have s5 : u * (E + (10323 / 100 * u * E + 37 / 10 * m)) ≤ u * E + 1 / 1000 * (u * E) + 1 / 1000 * m := by
    have t1 : 10323 / 100 * u ≤ 1 / 1000 := by linarith
    have t2 := mul_le_mul_of_nonneg_right t1 (mul_nonneg hu.le hEq.le)
    have t3 : u * (37 / 10 * m) ≤ 1 / 1000 * m := by nlinarith
    nlinarith
  nlinarith [mul_pos hu hEq]

/-! ## overflow -/

/-- arguments at or above `expOver` give `+∞` -/
def expOver : FTy → ℕ | .float => 89 | .double => 710 | .ldouble => 11357

theorem expOver_ok (hf : f.exact = false) : 11 / 10 * pow2 f.emax ≤ (27182818283 / 10 ^ 10 : ℚ) ^ expOver f.ty := by
  obtain ⟨ty, ex⟩ := f
  cases (show ex = false from hf)
  cases ty <;> decide +kernel

theorem inf_mul_pos {c : ℚ} (hc : 0 < c) : (inf false : FV f) * fin c false = inf false := by
  have hs : sign (fin c false : FV f) = false := by rw [sign, if_neg hc.ne']; simp; exact hc.le
  change FV.mul _ _ = _
  simp only [FV.mul, hc.ne', if_false, hs, Bool.xor_false]

theorem mk_over {q : ℚ} {zs : Bool} (hf : f.exact = false) (h : pow2 f.emax ≤ q) : mk f q zs = inf false := by
  have h0 := pow2_pos f.emax
  have hr : pow2 f.emax ≤ rnd f q := by
    refine le_rnd_of_rep ?_ h
    have e : pow2 f.emax = 2 ^ f.emax.toNat := by
      rw [← pow2_nat]; congr 1
      rcases f with ⟨⟨⟩, _⟩ <;> rfl
    rw [e]; exact rep_pow2_nat
  have ho : overflows f (rnd f q) = true := by
    by_contra hc
    rw [Bool.not_eq_true, overflows_false_iff] at hc
    rcases hc with hc | hc
    · rw [hf] at hc; simp at hc
    · rw [abs_of_pos (by linarith)] at hc; linarith
  unfold mk
  simp only [ho, if_true]
  simp; linarith

/-- C70: wherever it is defined, `exp` of an argument at or above `89` (`float`), `710` (`double`) or `11357`
(`long double`) is `+∞`. -/
theorem C70_overflow (hf : f.exact = false) (q : ℚ) (z : Bool) (hx : Valid (fin q z : FV f))
    (hq : (expOver f.ty : ℚ) ≤ q) (v : FV f) (hv : exp (fin q z : FV f) = .ok v) : v = inf false := by
  have q89 : 89 ≤ q := by
    have : 89 ≤ expOver f.ty := by rcases f with ⟨⟨⟩, _⟩ <;> simp [expOver]
    have : (89:ℚ) ≤ expOver f.ty := by exact_mod_cast this
    linarith
  have ha : 2 ≤ |q| := by rw [abs_of_pos (by linarith)]; linarith
  obtain ⟨-, w1, w2⟩ := wholeOf_bounds q
  by_cases hW : -2 ^ 63 ≤ wholeOf q ∧ wholeOf q ≤ 2 ^ 63 - 1
  swap
  · rw [exp_large_ub hf hx ha hW] at hv; simp at hv
  obtain ⟨w, hw⟩ := exp_large_ok hf hx ha hW
  rw [hw, Except.ok.injEq] at hv
  have hfr : |q - wholeOf q| ≤ 2 := by rw [abs_le]; constructor <;> linarith
  obtain ⟨c, c1, c2, c3, c4⟩ := exp_cf_rel (f := f) (z := w) hfr
  rw [c1, ldbl_x87 hf] at hv
  have i0 : 0 ≤ wholeOf q := by
    have : ((0 : ℤ) : ℚ) ≤ wholeOf q := by push_cast; linarith
    exact_mod_cast this
  obtain ⟨n, hn⟩ := Int.eq_ofNat_of_zero_le i0
  have he : pow_integral_llint (L GCEM_E : FV x87) (wholeOf q) = pow_integral_nonneg (L GCEM_E : FV x87) n (2 ^ 63 - 1) := by
    unfold pow_integral_llint pow_integral_compute
    rw [if_neg (by omega), hn]; rfl
  rw [he] at hv
  rcases pow_E_ge n with h | ⟨p, zz, h, p1, p2⟩
  · rw [h] at hv
    rw [← hv]; exact inf_mul_pos c3
  rw [h] at hv
  have pp : 0 < p := lt_of_lt_of_le (by positivity) p1
  change mk f p zz * _ = _ at hv
  rcases ho : overflows f (rnd f p) with _ | _
  swap
  · have : mk f p zz = inf false := by
      unfold mk
      simp only [ho, if_true]
      simp; exact pp.le
    rw [this, inf_mul_pos c3] at hv
    exact hv.symm
  rw [mk_nn pp.le (fun h => absurd h pp.ne') ho, fin_mul] at hv
  rw [← hv]
  apply mk_over hf
  -- the product is too large
  have n1 : n ≤ 11357 := by
    by_contra hc
    push Not at hc
    have h1 : pow2 x87.emax ≤ (271828 / 100000 : ℚ) ^ 11357 := by decide +kernel
    have h2 : (271828 / 100000 : ℚ) ^ 11357 ≤ (271828 / 100000 : ℚ) ^ n := pow_le_pow_right₀ (by norm_num) hc.le
    exact absurd (h1.trans (h2.trans p1)) (not_le.2 p2)
  have hu := uro_pos_real f
  have hu1 := uro_le f
  have pn : minNormal f ≤ |p| := by
    rw [abs_of_pos pp]
    have : (1:ℚ) ≤ (271828 / 100000 : ℚ) ^ n := one_le_pow₀ (by norm_num)
    have := minNormal_lt_one f
    linarith
  have e1 := (Rat.cast_le (K := ℝ)).2 (rnd_err_rel (f := f) pn)
  rw [abs_of_pos pp] at e1
  push_cast at e1
  have e1' := (abs_le.1 e1).1
  have p1r := (Rat.cast_le (K := ℝ)).2 p1
  push_cast at p1r
  have e99 : 99 / 100 * Real.exp n ≤ (271828 / 100000 : ℝ) ^ n := by
    have hE : Real.exp n = Real.exp 1 ^ n := by rw [← Real.exp_nat_mul, mul_one]
    rw [hE]
    have k1 : Real.exp 1 ^ n ≤ (27182818286 / 10 ^ 10 : ℝ) ^ n :=
      pow_le_pow_left₀ (Real.exp_pos 1).le (by have := Real.exp_one_lt_d9; linarith) n
    have k2 : (99 / 100 : ℝ) ≤ (271828 / 100000 / (27182818286 / 10 ^ 10) : ℝ) ^ n := by
      have b := one_sub_pow_ge (u := 1 - 271828 / 100000 / (27182818286 / 10 ^ 10)) (by norm_num) n
      have e : (1 - (1 - 271828 / 100000 / (27182818286 / 10 ^ 10)) : ℝ) = 271828 / 100000 / (27182818286 / 10 ^ 10) := by ring
      rw [e] at b
      refine le_trans ?_ b
      have : (n:ℝ) ≤ 11357 := by exact_mod_cast n1
      norm_num; linarith
    rw [div_pow, le_div_iff₀ (by positivity)] at k2
    nlinarith
  have c5 := c4.ge
  have hE : Real.exp (n : ℝ) * Real.exp ((q - wholeOf q : ℚ) : ℝ) = Real.exp q := by
    rw [← Real.exp_add, hn]; push_cast; congr 1; ring
  have hQ : 11 / 10 * (pow2 f.emax : ℝ) ≤ Real.exp q := by
    have h1 := (Rat.cast_le (K := ℝ)).2 (expOver_ok hf)
    push_cast at h1
    refine h1.trans ?_
    have h2 : Real.exp (expOver f.ty : ℝ) ≤ Real.exp q := Real.exp_le_exp.2 (by exact_mod_cast hq)
    refine le_trans ?_ h2
    have h3 : Real.exp (expOver f.ty : ℝ) = Real.exp 1 ^ expOver f.ty := by rw [← Real.exp_nat_mul, mul_one]
    rw [h3]
    exact pow_le_pow_left₀ (by norm_num) (by have := Real.exp_one_gt_d9; linarith) _
  have A0 := Real.exp_pos ((q - wholeOf q : ℚ) : ℝ)
  have a0 := Real.exp_pos (n : ℝ)
  have goal : (pow2 f.emax : ℝ) ≤ (rnd f p : ℚ) * (c : ℝ) := by
    generalize ((rnd f p : ℚ) : ℝ) = p' at *
    generalize ((pow2 f.emax : ℚ) : ℝ) = M at *
    generalize Real.exp ((q - wholeOf q : ℚ) : ℝ) = A at *
    generalize Real.exp (n : ℝ) = a at *
    generalize Real.exp (q : ℝ) = E at *
    generalize ((uro f : ℚ) : ℝ) = u at *
    have h1 : 98 / 100 * a ≤ p' := by
      have : (0:ℝ) < p := by exact_mod_cast pp
      nlinarith
    have h2 : 98 / 100 * A ≤ c := by nlinarith
    have h3 := mul_le_mul h1 h2 (by positivity) (by linarith : (0:ℝ) ≤ p')
    have E0 : 0 < E := by rw [← hE]; positivity
    have e : 98 / 100 * a * (98 / 100 * A) = 9604 / 10000 * E := by rw [← hE]; ring
    rw [e] at h3
    nlinarith
  have : ((pow2 f.emax : ℚ) : ℝ) ≤ ((rnd f p * c : ℚ) : ℝ) := by push_cast; exact goal
  exact_mod_cast this

/-- C70 is FALSE for gradual underflow in `long double`: there the power of `e` is formed as the reciprocal of an
overflowed positive power.  `exp(-11380)` is `0`, although `e^-11380` is more than 100 000 times the least positive value. -/
theorem C70_long_double_flush : exp (fin (-11380) false : FV x87) = .ok (fin 0 false) ∧
    100000 * (pow2 x87.emin : ℝ) ≤ Real.exp (-11380) := by
  constructor
  · have hv : Valid (fin (-11380) false : FV x87) := by decide +kernel
    obtain ⟨r, hr⟩ := (C30_undefined_long_double _ _ hv).2 (by norm_num)
    rw [hr, C70_underflow (f := x87) rfl _ _ hv (by norm_num [expUnder]) r hr]
  · have e1 : Real.exp (-11380) = (Real.exp 1 ^ 11380)⁻¹ := by
      rw [Real.exp_neg, ← Real.exp_nat_mul]; norm_num
    rw [e1, ← one_div, le_div_iff₀ (pow_pos (Real.exp_pos 1) _)]
    have h1 : (100000 * pow2 x87.emin) * (27182818286 / 10 ^ 10 : ℚ) ^ 11380 ≤ 1 := by decide +kernel
    have h2 := (Rat.cast_le (K := ℝ)).2 h1
    push_cast at h2
    refine le_trans (mul_le_mul_of_nonneg_left ?_ ?_) h2
    · exact pow_le_pow_left₀ (Real.exp_pos 1).le (by have := Real.exp_one_lt_d9; linarith) _
    · have := pow2_pos x87.emin
      have : (0:ℝ) < pow2 x87.emin := by exact_mod_cast this
      positivity

example : exp (fin 1000 false : FV binary64) = .ok (inf false) ∧ exp (fin (-1000) false : FV binary64) = .ok (fin 0 false) := by
  constructor
  · obtain ⟨r, hr⟩ := (C30_undefined (f := binary64) rfl (by decide) 1000 false (by decide +kernel)).2 (by norm_num)
    rw [hr, C70_overflow rfl _ _ (by decide +kernel) (by norm_num [expOver, binary64]) r hr]
  · obtain ⟨r, hr⟩ := (C30_undefined (f := binary64) rfl (by decide) (-1000) false (by decide +kernel)).2 (by norm_num)
    rw [hr, C70_underflow rfl _ _ (by decide +kernel) (by norm_num [expUnder, binary64]) r hr]

example (v : FV binary64) (hv : exp (fin (-740) false : FV binary64) = .ok v) : ∃ r, v = fin r false ∧ 0 ≤ r ∧
    |(r : ℝ) - Real.exp ((-740 : ℚ) : ℝ)| ≤ 105 * (1 / 2 ^ binary64.prec) * Real.exp ((-740 : ℚ) : ℝ) + 5 * (pow2 binary64.emin : ℝ) :=
  C70_gradual rfl (by decide) _ _ (by decide +kernel) (by norm_num) v hv

end Gcem.Props
