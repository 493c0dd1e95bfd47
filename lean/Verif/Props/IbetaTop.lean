import Verif.Props.IbetaAcc
import Verif.Props.Incomplete
import Verif.Props.AsinAcc

/-!
# C81: accuracy of incomplete_beta

The bound for `incomplete_beta_begin` is carried through the choice of branch in `incomplete_beta_check`
and the reflection `1 - I(b, a, 1 - z)`.
-/

namespace Gcem.Props
open Gcem FV IB
variable {f : Fmt}

/-- the computed threshold `(a + 1)/(a + b + 2)` -/
theorem ib_threshold {a b : ℚ} {wa wb : Bool} (a1 : 1 / 2 ≤ a) (a2 : a ≤ 10) (b1 : 1 / 2 ≤ b) (b2 : b ≤ 10) :
    ∃ τ w, ((fin a wa : FV f) + i 1) / (fin a wa + fin b wb + i 2) = fin τ w ∧
      |τ * (a + b + 2) - (a + 1)| ≤ 1 / 10 ^ 6 * (a + 1) := by
  have hw := wro_le f
  have hw0 := wro_pos f
  have ra : Rl (fin a wa : FV f) a 0 := (is_fin a wa).rl (by linarith)
  have rb : Rl (fin b wb : FV f) b 0 := (is_fin b wb).rl (by linarith)
  have r1 : Rl (i 1 : FV f) 1 0 := by
    have := (is_i (f := f) (n := 1) (by norm_num)).rl (by norm_num)
    push_cast at this; exact this
  have r2 : Rl (i 2 : FV f) 2 0 := by
    have := (is_i (f := f) (n := 2) (by norm_num)).rl (by norm_num)
    push_cast at this; exact this
  have s1 := ra.add r1 (C := 0) (c'' := 1) (by linarith) (by linarith) (by linarith) (by norm_num) (by norm_num)
  have s2 := ra.add rb (C := 0) (c'' := 1) (by linarith) (by linarith) (by linarith) (by norm_num) (by norm_num)
  have s3 := s2.add r2 (C := 1) (c'' := 2) (by linarith) (by linarith) (by linarith) (by norm_num) (by norm_num)
  have hp : 0 < a + b + 2 := by linarith
  have s4 := s1.div s3 (c'' := 5) (by rw [le_div_iff₀ hp]; linarith) (by rw [div_le_iff₀ hp]; linarith) (by norm_num) (by norm_num)
  obtain ⟨-, -, τ, ⟨w, e⟩, h⟩ := s4
  refine ⟨τ, w, e, ?_⟩
  have e1 : τ * (a + b + 2) - (a + 1) = (τ - (a + 1) / (a + b + 2)) * (a + b + 2) := by field_simp
  rw [e1, abs_mul, abs_of_pos hp]
  refine (mul_le_mul_of_nonneg_right h hp.le).trans ?_
  rw [mul_assoc, div_mul_cancel₀ _ hp.ne']
  have : 5 * wro f ≤ 1 / 10 ^ 6 := by linarith
  exact mul_le_mul_of_nonneg_right this (by linarith)

/-- the lower branch -/
theorem ib_lower (hf : f.exact = false) {a b z : ℚ} {wa wb wz : Bool} (a1 : 1 / 2 ≤ a) (a2 : a ≤ 10) (b1 : 1 / 2 ≤ b) (b2 : b ≤ 10)
    (z1 : 1 / 2 ^ 100 ≤ z) :
    (z * (a + b + 2) ≤ 100001 / 100000 * (a + 1) ∧
      incomplete_beta (fin a wa : FV f) (fin b wb) (fin z wz) = incomplete_beta_begin (fin a wa) (fin b wb) (fin z wz)) ∨
    (999999 / 1000000 * (a + 1) ≤ z * (a + b + 2) ∧
      incomplete_beta (fin a wa : FV f) (fin b wb) (fin z wz) =
        (incomplete_beta_begin (fin b wb) (fin a wa) (i 1 - fin z wz)) >>= fun r => .ok (i 1 - r)) := by
  have hn : ¬ any_nan3 (fin a wa : FV f) (fin b wb) (fin z wz) = true := by rw [any_nan3_iff]; simp
  have hm : ¬ ((limMin : FV f) > fin z wz) := by
    have h1 := minNormal_le' f
    unfold limMin; change ¬ (fin _ _ < fin _ _); simp; exact h1.trans (le_trans (by norm_num) z1)
  obtain ⟨τ, w, e, h⟩ := ib_threshold (f := f) (wa := wa) (wb := wb) a1 a2 b1 b2
  rw [abs_le] at h
  unfold incomplete_beta incomplete_beta_check
  rw [if_neg hn, if_neg hm, e]
  have hp : 0 < a + b + 2 := by linarith
  rcases lt_or_ge z τ with hz | hz
  · left
    have hg : ((fin τ w : FV f) > fin z wz) := by change (fin _ _ < fin _ _); simpa using hz
    rw [if_pos hg]
    refine ⟨?_, rfl⟩
    have := mul_le_mul_of_nonneg_right hz.le hp.le
    linarith [h.2]
  · right
    have hg : ¬ ((fin τ w : FV f) > fin z wz) := by change ¬ (fin _ _ < fin _ _); simpa using hz
    rw [if_neg hg]
    refine ⟨?_, rfl⟩
    have := mul_le_mul_of_nonneg_right hz hp.le
    linarith [h.1]

/-- the complement `1 - z` -/
theorem ib_compl (hf : f.exact = false) {z : ℚ} {wz : Bool} (hzv : Valid (fin z wz : FV f)) (z1 : 11 / 100 ≤ z) (z2 : z < 1) :
    ∃ z' w, (i 1 - fin z wz : FV f) = fin z' w ∧ Valid (fin z' w : FV f) ∧ 1 / 2 ^ 100 ≤ z' ∧ z' < 1 ∧
      |z' - (1 - z)| ≤ uro f * (1 - z) ∧ (1 / 2 ≤ z → z' = 1 - z) := by
  have hu := uro_pos f
  have hu24 := uro_le_rat f
  have h1 : 0 < 1 - z := by linarith
  obtain ⟨w, e⟩ := (is_i (f := f) (n := 1) (by norm_num)).sub (is_fin z wz) (nov (by
    push_cast
    rw [abs_of_pos h1]
    linarith))
  push_cast at e
  refine ⟨_, w, e, ?_, ?_⟩
  · rw [← e]; exact valid_sub _ _
  have hmn : minNormal f ≤ 1 - z := by
    have h2 := minNormal_le' f
    rcases le_or_gt z (1 / 2) with h | h
    · exact h2.trans (le_trans (by norm_num) (show 1 / 2 ≤ 1 - z by linarith))
    · have h3 := uro_lt_of_lt_one hf hzv.rep z2 h.le
      have h4 := uro_ge f
      exact h2.trans (le_trans (by norm_num) (h4.trans h3))
  have herr := rnd_err_rel (f := f) (q := 1 - z) (by rw [abs_of_pos h1]; exact hmn)
  rw [abs_of_pos h1] at herr
  have hb : 1 / 2 ^ 100 ≤ rnd f (1 - z) := by
    rw [abs_le] at herr
    have h5 : 1 / 2 ^ 64 ≤ 1 - z := by
      rcases le_or_gt z (1 / 2) with h | h
      · exact le_trans (by norm_num) (show 1 / 2 ≤ 1 - z by linarith)
      · exact (uro_ge f).trans (uro_lt_of_lt_one hf hzv.rep z2 h.le)
    have h6 : uro f * (1 - z) ≤ 1 / 16777216 * (1 - z) := mul_le_mul_of_nonneg_right hu24 h1.le
    have : (1:ℚ) / 2 ^ 100 ≤ 1 / 2 * (1 / 2 ^ 64) := by norm_num
    linarith
  refine ⟨hb, ?_, herr, ?_⟩
  · rw [abs_le] at herr
    have h6 : uro f * (1 - z) ≤ 1 / 16777216 * (1 - z) := mul_le_mul_of_nonneg_right hu24 h1.le
    linarith
  · intro h
    have := (rep_sub_one hf hzv.rep h (by linarith)).neg
    rw [neg_sub] at this
    exact this

theorem ib_slack {a b z z' u : ℚ} (a1 : 1 / 2 ≤ a) (a2 : a ≤ 10) (b1 : 1 / 2 ≤ b) (z2 : z < 1) (hu : u ≤ 1 / 10 ^ 7)
    (hz : 999999 / 1000000 * (a + 1) ≤ z * (a + b + 2)) (h : |z' - (1 - z)| ≤ u * (1 - z)) :
    z' * (b + a + 2) ≤ 100001 / 100000 * (b + 1) := by
  have h1 : z' ≤ (1 - z) * (1 + 1 / 10 ^ 7) := by
    rw [abs_le] at h
    have : u * (1 - z) ≤ 1 / 10 ^ 7 * (1 - z) := mul_le_mul_of_nonneg_right hu (by linarith)
    linarith [h.2]
  have h2 := mul_le_mul_of_nonneg_right h1 (show 0 ≤ b + a + 2 by linarith)
  refine h2.trans ?_
  have h3 : (1 - z) * (b + a + 2) ≤ b + 1 + 1 / 1000000 * (a + 1) := by linarith
  have h4 : (1 - z) * (1 + 1 / 10 ^ 7) * (b + a + 2) = (1 + 1 / 10 ^ 7) * ((1 - z) * (b + a + 2)) := by ring
  rw [h4]
  have := mul_le_mul_of_nonneg_left h3 (show (0:ℚ) ≤ 1 + 1 / 10 ^ 7 by norm_num)
  refine this.trans ?_
  linarith

/-- the last subtraction -/
theorem ib_last {r2 : ℚ} {w : Bool} {I s : ℝ} (hI0 : 0 ≤ I) (hI1 : I ≤ 1) (hs0 : 0 ≤ s) (hs : s ≤ 1) (h : |(r2:ℝ) - I| ≤ s) :
    ∃ r w', (i 1 - fin r2 w : FV f) = fin r w' ∧ |(r:ℝ) - (1 - I)| ≤ s + 3 * uro f := by
  have hu := uro_pos_real f
  have hq : |(1:ℝ) - r2| ≤ 2 := by rw [abs_le] at h ⊢; constructor <;> linarith [h.1, h.2]
  have hqq : |(1:ℚ) - r2| ≤ 2 := by exact_mod_cast hq
  obtain ⟨w', e⟩ := (is_i (f := f) (n := 1) (by norm_num)).sub (is_fin r2 w) (nov (by
    push_cast
    exact hqq.trans (by norm_num)))
  push_cast at e
  refine ⟨_, w', e, ?_⟩
  have h1 := rnd_all_real f (1 - r2)
  generalize rnd f (1 - r2) = v at h1
  push_cast at h1
  have h2 := mul_le_mul_of_nonneg_left hq hu.le
  have h3 : (v:ℝ) - (1 - I) = (v - (1 - r2)) - (r2 - I) := by ring
  rw [h3]
  refine (abs_sub _ _).trans ?_
  linarith

/-- the upper branch, with the argument of the inner call still rounded -/
theorem ib_upper (hf : f.exact = false) {a b z : ℚ} {wa wb wz : Bool} (ha : Valid (fin a wa : FV f)) (hb : Valid (fin b wb : FV f)) (hzv : Valid (fin z wz : FV f))
    (a1 : 1 / 2 ≤ a) (a2 : a ≤ 10) (b1 : 1 / 2 ≤ b) (b2 : b ≤ 10) (z2 : z < 1)
    (hz : 999999 / 1000000 * (a + 1) ≤ z * (a + b + 2))
    (ht : 1 / 2 < z → ∀ e : ℤ, 1 / 10000 * (10:ℚ) ^ e < |(1 - z) - 10 ^ e|)
    (hlow : 16 - expMin f.ty ≤ b * Real.log (1 - z)) :
    ∃ r w, (incomplete_beta_begin (fin b wb : FV f) (fin a wa) (i 1 - fin z wz) >>= fun r => .ok (i 1 - r)) = .ok (fin r w) ∧
      |(r:ℝ) - ibI a b z| ≤ (15500 + 13 * (b * |Real.log (1 - z)|)) * uro f + 2 / 10 ^ 13 := by
  have hu := uro_pos_real f
  have hu24 := uro_le f
  have a0' : (0:ℝ) < a := by exact_mod_cast (show (0:ℚ) < a by linarith)
  have b0' : (0:ℝ) < b := by exact_mod_cast (show (0:ℚ) < b by linarith)
  have b2' : (b:ℝ) ≤ 10 := by exact_mod_cast b2
  have z11 : 1199 / 10000 ≤ z := by
    by_contra hcon
    push Not at hcon
    nlinarith
  have z11' : (1199 / 10000 : ℝ) ≤ z := by
    have := (Rat.cast_le (K := ℝ)).2 z11
    push_cast at this; exact this
  have z2' : (z:ℝ) < 1 := by exact_mod_cast z2
  obtain ⟨z', w', e', v', z1', zl', herr, hex⟩ := ib_compl hf hzv (by linarith) z2
  have hu7 : uro f ≤ 1 / 10 ^ 7 := by have := uro_le_rat f; linarith
  have hsl := ib_slack a1 a2 b1 z2 hu7 hz herr
  have hlog0 : Real.log (1 - z) ≤ 0 := Real.log_nonpos (by linarith) (by linarith)
  have hsym : ibI a b z = 1 - ibI b a (1 - z) := ibI_symm a0' b0' (by linarith) z2'.le
  have key : ∃ r w, incomplete_beta_begin (fin b wb : FV f) (fin a wa) (fin z' w') = .ok (fin r w) ∧
      |(r:ℝ) - ibI b a (1 - z)| ≤ (15400 + 13 * (b * |Real.log (1 - z)|)) * uro f + 2 / 10 ^ 13 := by
    rcases le_or_gt (1 / 2) z with h | h
    · have ez := hex h
      have ezr : (z':ℝ) = 1 - z := by rw [ez]; push_cast; ring
      obtain ⟨r, w, er, hr⟩ := ib_begin hf hb ha v' b1 b2 a1 a2 z1' zl' hsl
        (by intro h'; rw [ez] at h' ⊢; exact ht (by linarith)) (by rw [ezr]; exact hlow)
      refine ⟨r, w, er, ?_⟩
      rw [ezr] at hr
      refine hr.trans ?_
      have h1 := ibI_le_one (z := 1 - z) b0' a0' (by linarith) (by linarith)
      have h2 : 0 ≤ (15000 + 13 * (b * |Real.log (1 - z)|)) * (uro f : ℝ) + 2 / 10 ^ 13 := by positivity
      have := mul_le_mul_of_nonneg_left h1 h2
      linarith
    · have h' : (z:ℝ) < 1 / 2 := by
        have := (Rat.cast_lt (K := ℝ)).2 h
        push_cast at this; exact this
      have herr' : |(z':ℝ) - (1 - z)| ≤ uro f * (1 - z) := by
        have := (Rat.cast_le (K := ℝ)).2 herr
        push_cast at this; exact this
      have h3 : (uro f : ℝ) * (1 - z) ≤ uro f := by nlinarith
      have h3' : |(z':ℝ) - (1 - z)| ≤ uro f := herr'.trans h3
      have h4 := abs_le.1 h3'
      have hzr : (49 / 100 : ℝ) ≤ z' := by linarith [h4.1]
      have hzq : (49 / 100 : ℚ) ≤ z' := by
        have : ((49 / 100 : ℚ) : ℝ) ≤ z' := by push_cast; exact hzr
        exact_mod_cast this
      have hl : -1 ≤ Real.log z' := by
        have h5 : Real.log (1 / 2) ≤ Real.log (z' * (50 / 49)) := Real.log_le_log (by norm_num) (by linarith)
        rw [Real.log_mul (by linarith) (by norm_num), one_div, Real.log_inv] at h5
        have h6 := Real.log_le_sub_one_of_pos (show (0:ℝ) < 50 / 49 by norm_num)
        have := Real.log_two_lt_d9
        linarith
      have hl0 : Real.log z' ≤ 0 := Real.log_nonpos (by linarith) (by exact_mod_cast zl'.le)
      have hbl : -10 ≤ b * Real.log z' := by nlinarith
      obtain ⟨r, w, er, hr⟩ := ib_begin hf hb ha v' b1 b2 a1 a2 z1' zl' hsl
        (fun h'' => ib_not_ten (by linarith) h'') (by have := expMin_ge f.ty; linarith)
      refine ⟨r, w, er, ?_⟩
      have zl'' : (z':ℝ) < 1 := by exact_mod_cast zl'
      have h1 := ibI_le_one (z := z') b0' a0' (by linarith) zl''.le
      have hab : b * |Real.log z'| ≤ 10 := by rw [abs_of_nonpos hl0]; linarith
      have h2 : 0 ≤ (15000 + 13 * (b * |Real.log z'|)) * (uro f : ℝ) + 2 / 10 ^ 13 := by positivity
      have h5 := hr.trans (mul_le_mul_of_nonneg_left h1 h2)
      have h6 : (15000 + 13 * (b * |Real.log z'|)) * (uro f : ℝ) ≤ 15130 * uro f := mul_le_mul_of_nonneg_right (by linarith) hu.le
      have h7 : |ibI b a z' - ibI b a (1 - z)| ≤ 112 * uro f := by
        rcases le_total (z':ℝ) (1 - z) with h8 | h8
        · obtain ⟨g1, g2⟩ := ibI_lipschitz b0' a0' b2' (x := z') (y := 1 - z) (by linarith) h8 (by linarith)
          rw [abs_of_nonpos (by linarith)]
          linarith [h4.1]
        · obtain ⟨g1, g2⟩ := ibI_lipschitz b0' a0' b2' (x := 1 - z) (y := z') (by linarith) h8 (by linarith)
          rw [abs_of_nonneg (by linarith)]
          linarith [h4.2]
      have h9 := abs_sub_le (r:ℝ) (ibI b a z') (ibI b a (1 - z))
      have h10 : 0 ≤ 13 * (b * |Real.log (1 - z)|) * (uro f : ℝ) := by positivity
      linarith
  obtain ⟨r, w, er, hr⟩ := key
  have hbl : b * |Real.log (1 - z)| ≤ 12000 := by
    rw [abs_of_nonpos hlog0]
    have := (expMin_le f.ty).1
    linarith
  have hs : (15400 + 13 * (b * |Real.log (1 - z)|)) * (uro f : ℝ) + 2 / 10 ^ 13 ≤ 1 := by
    have : (15400 + 13 * (b * |Real.log (1 - z)|)) * (uro f : ℝ) ≤ 180000 * uro f := mul_le_mul_of_nonneg_right (by linarith) hu.le
    linarith
  obtain ⟨q, wq, eq, hq⟩ := ib_last (f := f) (w := w) (ibI_nonneg (z := 1 - z) b0' a0' (by linarith) (by linarith))
    (ibI_le_one (z := 1 - z) b0' a0' (by linarith) (by linarith)) (by positivity) hs hr
  refine ⟨q, wq, ?_, ?_⟩
  · rw [e', er]
    change Except.ok _ = _
    rw [eq]
  · rw [hsym]
    refine hq.trans ?_
    linarith

/-- C81: for `a` and `b` between 1/2 and 10 and `z` in `(0, 1)`, `incomplete_beta` returns a finite value close to the regularized
incomplete beta function.  `z` and `1 - z` must stay away from the powers of ten below 1/2 (the logarithm is wrong there, C37) and
`z^a`, `(1-z)^b` from the underflow threshold of `exp`. -/
theorem C81_accuracy (hf : f.exact = false) {a b z : ℚ} {wa wb wz : Bool} (ha : Valid (fin a wa : FV f)) (hb : Valid (fin b wb : FV f))
    (hzv : Valid (fin z wz : FV f)) (a1 : 1 / 2 ≤ a) (a2 : a ≤ 10) (b1 : 1 / 2 ≤ b) (b2 : b ≤ 10) (z1 : 1 / 2 ^ 100 ≤ z) (z2 : z < 1)
    (t1 : z < 1 / 2 → ∀ e : ℤ, 1 / 10000 * (10:ℚ) ^ e < |z - 10 ^ e|)
    (t2 : 1 / 2 < z → ∀ e : ℤ, 1 / 10000 * (10:ℚ) ^ e < |(1 - z) - 10 ^ e|)
    (l1 : 16 - expMin f.ty ≤ a * Real.log z) (l2 : 16 - expMin f.ty ≤ b * Real.log (1 - z)) :
    ∃ r w, incomplete_beta (fin a wa : FV f) (fin b wb) (fin z wz) = .ok (fin r w) ∧
      |(r:ℝ) - (∫ t in (0:ℝ)..z, t ^ ((a:ℝ) - 1) * (1 - t) ^ ((b:ℝ) - 1)) / (∫ t in (0:ℝ)..1, t ^ ((a:ℝ) - 1) * (1 - t) ^ ((b:ℝ) - 1))|
        ≤ (16000 + 13 * (a * |Real.log z| + b * |Real.log (1 - z)|)) / 2 ^ f.prec + 3 / 10 ^ 13 := by
  change ∃ (r : ℚ) (w : Bool), _ ∧ |(r:ℝ) - ibI a b z| ≤ _
  have hu := uro_pos_real f
  have a0' : (0:ℝ) < a := by exact_mod_cast (show (0:ℚ) < a by linarith)
  have b0' : (0:ℝ) < b := by exact_mod_cast (show (0:ℚ) < b by linarith)
  have z0' : (0:ℝ) < z := by exact_mod_cast (lt_of_lt_of_le (by norm_num) z1 : (0:ℚ) < z)
  have z2' : (z:ℝ) < 1 := by exact_mod_cast z2
  have e0 : (16000 + 13 * (a * |Real.log z| + b * |Real.log (1 - z)|)) / 2 ^ f.prec =
      (16000 + 13 * (a * |Real.log z| + b * |Real.log (1 - z)|)) * (uro f : ℝ) := by rw [uro_eq]; ring
  have p1 : 0 ≤ 13 * (a * |Real.log z|) * (uro f : ℝ) := by positivity
  have p2 : 0 ≤ 13 * (b * |Real.log (1 - z)|) * (uro f : ℝ) := by positivity
  rw [e0]
  rcases ib_lower hf (wa := wa) (wb := wb) (wz := wz) a1 a2 b1 b2 z1 with ⟨hz, e⟩ | ⟨hz, e⟩
  · obtain ⟨r, w, er, hr⟩ := ib_begin hf ha hb hzv a1 a2 b1 b2 z1 z2 hz t1 l1
    refine ⟨r, w, by rw [e, er], ?_⟩
    refine hr.trans ?_
    have h1 := ibI_le_one (z := z) a0' b0' z0'.le z2'.le
    have h2 : 0 ≤ (15000 + 13 * (a * |Real.log z|)) * (uro f : ℝ) + 2 / 10 ^ 13 := by positivity
    have := mul_le_mul_of_nonneg_left h1 h2
    linarith
  · obtain ⟨r, w, er, hr⟩ := ib_upper hf ha hb hzv a1 a2 b1 b2 z2 hz t2 l2
    refine ⟨r, w, by rw [e, er], ?_⟩
    linarith

/-- C81: below the switching point the bound is relative, so that small probabilities keep their digits. -/
theorem C81_lower_accuracy (hf : f.exact = false) {a b z : ℚ} {wa wb wz : Bool} (ha : Valid (fin a wa : FV f)) (hb : Valid (fin b wb : FV f))
    (hzv : Valid (fin z wz : FV f)) (a1 : 1 / 2 ≤ a) (a2 : a ≤ 10) (b1 : 1 / 2 ≤ b) (b2 : b ≤ 10) (z1 : 1 / 2 ^ 100 ≤ z) (z2 : z < 1)
    (hz : z * (a + b + 2) ≤ 9999 / 10000 * (a + 1))
    (t1 : z < 1 / 2 → ∀ e : ℤ, 1 / 10000 * (10:ℚ) ^ e < |z - 10 ^ e|)
    (l1 : 16 - expMin f.ty ≤ a * Real.log z) :
    ∃ r w, incomplete_beta (fin a wa : FV f) (fin b wb) (fin z wz) = .ok (fin r w) ∧
      |(r:ℝ) - (∫ t in (0:ℝ)..z, t ^ ((a:ℝ) - 1) * (1 - t) ^ ((b:ℝ) - 1)) / (∫ t in (0:ℝ)..1, t ^ ((a:ℝ) - 1) * (1 - t) ^ ((b:ℝ) - 1))|
        ≤ ((15000 + 13 * (a * |Real.log z|)) / 2 ^ f.prec + 2 / 10 ^ 13) *
          ((∫ t in (0:ℝ)..z, t ^ ((a:ℝ) - 1) * (1 - t) ^ ((b:ℝ) - 1)) / (∫ t in (0:ℝ)..1, t ^ ((a:ℝ) - 1) * (1 - t) ^ ((b:ℝ) - 1))) := by
  change ∃ (r : ℚ) (w : Bool), _ ∧ |(r:ℝ) - ibI a b z| ≤ _ * ibI a b z
  have e0 : (15000 + 13 * (a * |Real.log z|)) / 2 ^ f.prec = (15000 + 13 * (a * |Real.log z|)) * (uro f : ℝ) := by rw [uro_eq]; ring
  rw [e0]
  rcases ib_lower hf (wa := wa) (wb := wb) (wz := wz) a1 a2 b1 b2 z1 with ⟨h, e⟩ | ⟨h, e⟩
  · obtain ⟨r, w, er, hr⟩ := ib_begin hf ha hb hzv a1 a2 b1 b2 z1 z2 h t1 l1
    exact ⟨r, w, by rw [e, er], hr⟩
  · exfalso
    linarith

/-- C81 at a point: `incomplete_beta(1/2, 1/2, 3/4)` in `double`. -/
example : ∃ r w, incomplete_beta (fin (1 / 2) false : FV ⟨.double, false⟩) (fin (1 / 2) false) (fin (3 / 4) false) = .ok (fin r w) ∧
    |(r:ℝ) - (∫ t in (0:ℝ)..(3 / 4), t ^ ((1 / 2 : ℝ) - 1) * (1 - t) ^ ((1 / 2 : ℝ) - 1)) /
      (∫ t in (0:ℝ)..1, t ^ ((1 / 2 : ℝ) - 1) * (1 - t) ^ ((1 / 2 : ℝ) - 1))| ≤ 1 / 10 ^ 11 := by
  have hl1 : -1 ≤ Real.log (3 / 4) := by
    have := Real.one_sub_inv_le_log_of_pos (show (0:ℝ) < 3 / 4 by norm_num)
    norm_num at this ⊢; linarith
  have hl1' : Real.log (3 / 4) ≤ 0 := Real.log_nonpos (by norm_num) (by norm_num)
  have hl2 : -3 ≤ Real.log (1 / 4) := by
    have := Real.one_sub_inv_le_log_of_pos (show (0:ℝ) < 1 / 4 by norm_num)
    norm_num at this ⊢; linarith
  have hl2' : Real.log (1 / 4) ≤ 0 := Real.log_nonpos (by norm_num) (by norm_num)
  have hm := expMin_ge .double
  obtain ⟨r, w, e, h⟩ := C81_accuracy (f := ⟨.double, false⟩) rfl (a := 1 / 2) (b := 1 / 2) (z := 3 / 4) (wa := false) (wb := false) (wz := false)
    (by decide +kernel) (by decide +kernel) (by decide +kernel) (by norm_num) (by norm_num) (by norm_num) (by norm_num) (by norm_num) (by norm_num)
    (fun h => absurd h (by norm_num)) (fun _ e => by norm_num only; exact ib_not_ten (by norm_num) (by norm_num) e)
    (by push_cast; linarith) (by push_cast; rw [show (1:ℝ) - 3 / 4 = 1 / 4 by norm_num]; linarith)
  refine ⟨r, w, e, ?_⟩
  push_cast at h
  refine h.trans ?_
  rw [show (1:ℝ) - 3 / 4 = 1 / 4 by norm_num, abs_of_nonpos hl1', abs_of_nonpos hl2']
  have : (Fmt.prec ⟨.double, false⟩) = 53 := rfl
  rw [this]
  have : (16000 + 13 * (1 / 2 * -Real.log (3 / 4) + 1 / 2 * -Real.log (1 / 4))) / 2 ^ 53 ≤ (16100 : ℝ) / 2 ^ 53 := by
    apply div_le_div_of_nonneg_right _ (by positivity)
    linarith
  refine (add_le_add_left this _).trans ?_
  norm_num

/-- C81, lower branch at a point: `incomplete_beta(2, 3, 1/4)` in `float`. -/
example : ∃ r w, incomplete_beta (fin 2 false : FV ⟨.float, false⟩) (fin 3 false) (fin (1 / 4) false) = .ok (fin r w) ∧
    |(r:ℝ) - ibI 2 3 (1 / 4)| ≤ 1 / 1000 * ibI 2 3 (1 / 4) := by
  have hl2 : -3 ≤ Real.log (1 / 4) := by
    have := Real.one_sub_inv_le_log_of_pos (show (0:ℝ) < 1 / 4 by norm_num)
    norm_num at this ⊢; linarith
  have hl2' : Real.log (1 / 4) ≤ 0 := Real.log_nonpos (by norm_num) (by norm_num)
  have hm := expMin_ge .float
  obtain ⟨r, w, e, h⟩ := C81_lower_accuracy (f := ⟨.float, false⟩) rfl (a := 2) (b := 3) (z := 1 / 4) (wa := false) (wb := false) (wz := false)
    (by decide +kernel) (by decide +kernel) (by decide +kernel) (by norm_num) (by norm_num) (by norm_num) (by norm_num) (by norm_num) (by norm_num)
    (by norm_num) (fun _ e => ib_not_ten (by norm_num) (by norm_num) e) (by push_cast; linarith)
  refine ⟨r, w, e, ?_⟩
  push_cast at h
  refine h.trans ?_
  rw [abs_of_nonpos hl2']
  refine mul_le_mul_of_nonneg_right ?_ (ibI_nonneg (by norm_num) (by norm_num) (by norm_num) (by norm_num))
  have : (Fmt.prec ⟨.float, false⟩) = 24 := rfl
  rw [this]
  have : (15000 + 13 * (2 * -Real.log (1 / 4))) / 2 ^ 24 ≤ (15100 : ℝ) / 2 ^ 24 := by
    apply div_le_div_of_nonneg_right _ (by positivity)
    linarith
  refine (add_le_add_left this _).trans ?_
  norm_num

/-- the distribution function of the uniform distribution -/
theorem ibI_uniform (z : ℝ) : (∫ t in (0:ℝ)..z, t ^ ((1:ℝ) - 1) * (1 - t) ^ ((1:ℝ) - 1)) / (∫ t in (0:ℝ)..1, t ^ ((1:ℝ) - 1) * (1 - t) ^ ((1:ℝ) - 1)) = z := by
  simp

/-- C81 (why the powers of ten are excluded): `incomplete_beta(1, 1, z)` should be `z` itself; at the `double` nearest to `1e-14` the
result is almost ten times too large. -/
theorem C81_power_of_ten : ∃ x r : ℚ, (d 1e-14 : FV binary64) = fin x false ∧
    incomplete_beta (fin 1 false : FV binary64) (fin 1 false) (fin x false) = .ok (fin r false) ∧
    999 / 100 * ((∫ t in (0:ℝ)..x, t ^ ((1:ℝ) - 1) * (1 - t) ^ ((1:ℝ) - 1)) / (∫ t in (0:ℝ)..1, t ^ ((1:ℝ) - 1) * (1 - t) ^ ((1:ℝ) - 1))) < r := by
  refine ⟨6338253001141147 / 633825300114114700748351602688, 1980704062856607 / 19807040628566084398385987584,
    by decide +kernel, by decide +kernel, ?_⟩
  rw [ibI_uniform]
  norm_num

end Gcem.Props
