import Verif.Analysis.TanNear
import Verif.Fp.RoundFns

/-!
# Backward error of the tangent: all branches, and reduction by multiples of π
-/

namespace Gcem
open FV
variable {f : Fmt}

theorem cos_away_lo {x : ℝ} (h0 : 0 ≤ x) (h1 : x ≤ 15502 / 10000) : 1 / 200 ≤ |Real.cos x| := by
  have hp := pi_bounds
  have e : Real.cos x = Real.sin (Real.pi / 2 - x) := (Real.sin_pi_div_two_sub x).symm
  have h := Real.mul_le_sin (x := Real.pi / 2 - x) (by linarith) (by linarith)
  have h2 : (2:ℝ) / Real.pi ≥ 1 / 2 := by rw [ge_iff_le, le_div_iff₀ (by linarith)]; linarith
  have h3 : 1 / 2 * (Real.pi / 2 - x) ≤ 2 / Real.pi * (Real.pi / 2 - x) := mul_le_mul_of_nonneg_right h2 (by linarith)
  rw [e]; exact le_trans (by linarith) (le_abs_self _)

theorem cos_away_hi {x : ℝ} (h0 : 1599 / 1000 ≤ x) (h1 : x ≤ 315 / 100) : 1 / 200 ≤ |Real.cos x| := by
  have hp := pi_bounds
  have key : ∀ y : ℝ, 2 / 100 ≤ y → y ≤ Real.pi / 2 → 1 / 200 ≤ Real.sin y := by
    intro y y0 y1
    have h := Real.mul_le_sin (x := y) (by linarith) y1
    have h2 : (2:ℝ) / Real.pi ≥ 1 / 2 := by rw [ge_iff_le, le_div_iff₀ (by linarith)]; linarith
    have h3 : 1 / 2 * y ≤ 2 / Real.pi * y := mul_le_mul_of_nonneg_right h2 (by linarith)
    linarith
  have e : Real.cos x = -Real.sin (x - Real.pi / 2) := by
    rw [Real.sin_sub_pi_div_two]; ring
  rw [e, abs_neg]
  refine le_trans ?_ (le_abs_self _)
  rcases le_total (x - Real.pi / 2) (Real.pi / 2) with h | h
  · exact key _ (by linarith) h
  · rw [← Real.sin_pi_sub]; exact key _ (by linarith) (by linarith)

/-- what is known about the result for an argument -/
def TanOut (x : ℚ) (v : FV f) (c : ℝ) : Prop :=
  ∃ (r : ℚ) (θ : ℝ), Is v r ∧ Real.tan θ = r ∧ Real.cos θ ≠ 0 ∧ |θ - x| ≤ c * wro f * |(x:ℝ)| + poleErr f r ∧
    |r| ≤ 101 / 100 * 2 ^ 63 ∧ (r = 0 ∨ minNormal f ≤ |r| ∨ r = x)

theorem tan_tiny_back {x : ℝ} (h0 : 0 < x) (h1 : x ≤ 1 / 2 ^ 40) : ∃ θ, Real.tan θ = x ∧ Real.cos θ ≠ 0 ∧ |θ - x| ≤ x / 2 ^ 79 := by
  have h2 : x ≤ 1 / 100 := h1.trans (by norm_num)
  have hc := cos_eq_tanT h0 (by linarith)
  have c0 : 1 / 2 ≤ Real.cos x := by have := Real.one_sub_sq_div_two_le_cos (x := x); nlinarith
  have s0 : 0 ≤ Real.sin x := Real.sin_nonneg_of_nonneg_of_le_pi h0.le (by have := pi_bounds; linarith)
  have k := tanK_bounds h0 (by linarith)
  have hB : Real.sin x - x * Real.cos x = tanK x * x ^ 3 := by
    have : tanB 1 x = tanK x * x ^ 3 := by unfold tanK; field_simp
    rw [← this]; rfl
  have P : 1 / 2 ≤ x * Real.sin x + 1 * Real.cos x := by have := mul_nonneg h0.le s0; linarith
  obtain ⟨θ, t1, t2, t3⟩ := tan_backward (x := x) (N := x) (D := 1) one_ne_zero (lt_of_lt_of_le (by norm_num) P)
  refine ⟨θ, by rw [t1, div_one], t2, t3.trans ?_⟩
  rw [div_le_iff₀ (lt_of_lt_of_le (by norm_num) P), show x * Real.cos x - 1 * Real.sin x = -(Real.sin x - x * Real.cos x) by ring,
    abs_neg, hB, abs_of_pos (mul_pos k.1 (by positivity))]
  have e1 : tanK x * x ^ 3 ≤ 1 / 3 * x ^ 3 := mul_le_mul_of_nonneg_right k.2 (by positivity)
  have e2 : x ^ 2 ≤ (1 / 2 ^ 40) ^ 2 := by gcongr
  have e3 := mul_le_mul_of_nonneg_left e2 h0.le
  have e4 : x / 2 ^ 79 * (1 / 2) ≤ x / 2 ^ 79 * (x * Real.sin x + 1 * Real.cos x) := mul_le_mul_of_nonneg_left P (by positivity)
  refine le_trans ?_ e4
  rw [show x ^ 3 = x * x ^ 2 by ring] at e1 ⊢
  norm_num at e3 ⊢
  linarith

/-- a quotient from the continued fraction, tiny or not -/
theorem tan_quot_out {v : FV f} {x : ℚ} {ρ : ℝ} {N : ℕ} (hf : f.exact = false) (hv : Is v x) (hr : Rep f x) (hx0 : 0 ≤ x) (hx1 : x ≤ 315 / 100)
    (hc : 1 / 200 ≤ |Real.cos x|) (hρ0 : 0 < ρ) (hρ : (x:ℝ) ^ 2 ≤ 62 * ρ) (hρ1 : ρ ≤ 1 / 6) (hN : N ≤ 60) (hN5 : 5 ≤ N)
    (htr : 2 * ρ ^ (N - 5) ≤ 1 / 10 * wro f) : TanOut x (v / tan_cf_recur (v * v) 1 N) 15 := by
  obtain ⟨hw0, hw1, huw⟩ := wro_cast f
  rcases le_total (1 / 2 ^ 40) x with h | h
  · obtain ⟨r, θ, h1, h2, h3, h4, h5, h6⟩ := tan_cf_back hf hv h hx1 hc hρ0 hρ hρ1 hN hN5 htr
    refine ⟨r, θ, h1, h2, h3, ?_, h5, ?_⟩
    · rw [abs_of_nonneg (show (0:ℝ) ≤ x by exact_mod_cast hx0)]
      have := poleErr_nonneg f r
      linarith
    · rcases h6 with h6 | h6
      · exact Or.inl h6
      · exact Or.inr (Or.inl h6)
  · have hi := tan_quot_tiny hf hv hr hx0 h hN (by omega)
    have hb : |x| ≤ 101 / 100 * 2 ^ 63 := by rw [abs_of_nonneg hx0]; exact h.trans (by norm_num)
    rcases hx0.eq_or_lt with h0 | h0
    · refine ⟨0, 0, by rw [← h0] at hi; exact hi, by simp, by simp, ?_, by simp, Or.inl rfl⟩
      rw [← h0]; simpa using poleErr_nonneg f 0
    · have h0r : (0:ℝ) < x := by exact_mod_cast h0
      have h1r : (x:ℝ) ≤ 1 / 2 ^ 40 := by have := (Rat.cast_le (K := ℝ)).2 h; push_cast at this; exact this
      obtain ⟨θ, t1, t2, t3⟩ := tan_tiny_back h0r h1r
      refine ⟨x, θ, hi, t1, t2, t3.trans ?_, hb, Or.inr (Or.inr rfl)⟩
      rw [abs_of_pos h0r]
      have := poleErr_nonneg f x
      have hu : (1:ℝ) / 2 ^ 64 ≤ uro f := by have := (Rat.cast_le (K := ℝ)).2 (uro_ge' f); push_cast at this; exact this
      have h3 : (1:ℝ) / 2 ^ 79 ≤ 15 * wro f := by norm_num only at hu ⊢; linarith
      have h4 := mul_le_mul_of_nonneg_right h3 h0r.le
      have h5 : (x:ℝ) / 2 ^ 79 = 1 / 2 ^ 79 * x := by ring
      linarith

theorem wro_ge (f : Fmt) : (1:ℝ) / 2 ^ 64 ≤ wro f := by
  have hu : (1:ℝ) / 2 ^ 64 ≤ uro f := by have := (Rat.cast_le (K := ℝ)).2 (uro_ge' f); push_cast at this; exact this
  exact hu.trans (wro_cast f).2.2

/-- `tan_cf_main` on the range it is called with -/
theorem tan_main_out {v : FV f} {x : ℚ} (hf : f.exact = false) (hv : Is v x) (hr : Rep f x) (hx0 : 0 ≤ x) (hx1 : x ≤ 315 / 100) :
    TanOut x (tan_cf_main v) 15 := by
  have hw := wro_ge f
  have x0r : (0:ℝ) ≤ x := by exact_mod_cast hx0
  have x1r : (x:ℝ) ≤ 315 / 100 := by have := (Rat.cast_le (K := ℝ)).2 hx1; push_cast at this; exact this
  obtain ⟨a, ia, a0, a1⟩ := is_d_near (f := f) (q := 1.55) (by norm_num) (by norm_num)
  obtain ⟨b, ib, b0, b1⟩ := is_d_near (f := f) (q := 1.60) (by norm_num) (by norm_num)
  obtain ⟨c, ic, c0, c1⟩ := is_d_near (f := f) (q := 1.4) (by norm_num) (by norm_num)
  have i1 : Is (i 1 : FV f) 1 := by have := is_i (f := f) (n := 1) (by norm_num); push_cast at this; exact this
  norm_num at a0 a1 b0 b1 c0 c1
  unfold tan_cf_main
  simp only [gt_iff_lt, ia.lt_iff hv, hv.lt_iff ib, ic.lt_iff hv, i1.lt_iff hv]
  split_ifs with h1 h2 h3
  · obtain ⟨r, θ, g1, g2, g3, g4, g5, g6⟩ := tan_near_back hf hv hr (by linarith [h1.1]) (by linarith [h1.2])
    exact ⟨r, θ, g1, g2, g3, by rw [abs_of_nonneg x0r]; exact g4, g5, Or.inr (Or.inl g6)⟩
  all_goals
    have hc : 1 / 200 ≤ |Real.cos x| := by
      by_cases ha : a < x
      · have hb : b ≤ x := by by_contra hn; exact h1 ⟨ha, not_le.1 hn⟩
        have : (1599 / 1000 : ℚ) ≤ x := by linarith
        have := (Rat.cast_le (K := ℝ)).2 this
        push_cast at this
        exact cos_away_hi this x1r
      · have : x ≤ (15502 / 10000 : ℚ) := by linarith
        have := (Rat.cast_le (K := ℝ)).2 this
        push_cast at this
        exact cos_away_lo x0r this
  · refine tan_quot_out (ρ := 1 / 6) hf hv hr hx0 hx1 hc (by norm_num) (by nlinarith) le_rfl (by norm_num) (by norm_num) ?_
    refine le_trans (by norm_num) (mul_le_mul_of_nonneg_left hw (by norm_num))
  · have : x ≤ (141 / 100 : ℚ) := by linarith
    have := (Rat.cast_le (K := ℝ)).2 this
    push_cast at this
    refine tan_quot_out (ρ := 1 / 31) hf hv hr hx0 hx1 hc (by norm_num) (by nlinarith) (by norm_num) (by norm_num) (by norm_num) ?_
    refine le_trans (by norm_num) (mul_le_mul_of_nonneg_left hw (by norm_num))
  · have : x ≤ (1 : ℚ) := by linarith
    have := (Rat.cast_le (K := ℝ)).2 this
    push_cast at this
    refine tan_quot_out (ρ := 1 / 62) hf hv hr hx0 hx1 hc (by norm_num) (by nlinarith) (by norm_num) (by norm_num) (by norm_num) ?_
    refine le_trans (by norm_num) (mul_le_mul_of_nonneg_left hw (by norm_num))

theorem TanOut.neg {x : ℚ} {v : FV f} {c : ℝ} (h : TanOut x v c) : TanOut (-x) (-v) c := by
  obtain ⟨r, θ, g1, g2, g3, g4, g5, g6⟩ := h
  refine ⟨-r, -θ, g1.neg, by rw [Real.tan_neg, g2]; push_cast; rfl, by rwa [Real.cos_neg], ?_, by rwa [abs_neg], ?_⟩
  · push_cast
    rw [show -θ - -(x:ℝ) = -(θ - x) by ring, abs_neg, abs_neg]
    have : poleErr f (-r) = poleErr f r := by unfold poleErr; rw [abs_neg]
    rw [this]; exact g4
  · rcases g6 with h | h | h
    · left; rw [h]; exact _root_.neg_zero
    · right; left; rwa [abs_neg]
    · right; right; rw [h]

/-- slightly negative arguments, which the reduction can produce -/
theorem tan_main_out_neg {v : FV f} {x : ℚ} (hf : f.exact = false) (hv : Is v x) (hr : Rep f x) (hx0 : -1 ≤ x) (hx1 : x < 0) :
    TanOut x (tan_cf_main v) 15 := by
  have e : tan_cf_main v = -tan_cf_main (-v) := by
    obtain ⟨a, ia, a0, a1⟩ := is_d_near (f := f) (q := 1.55) (by norm_num) (by norm_num)
    obtain ⟨c, ic, c0, c1⟩ := is_d_near (f := f) (q := 1.4) (by norm_num) (by norm_num)
    have i1 : Is (i 1 : FV f) 1 := by have := is_i (f := f) (n := 1) (by norm_num); push_cast at this; exact this
    norm_num at a0 c0
    have n1 : ∀ w : FV f, ∀ y : ℚ, Is w y → y ≤ 1 → tan_cf_main w = w / tan_cf_recur (w * w) 1 25 := by
      intro w y hw hy
      unfold tan_cf_main
      simp only [gt_iff_lt, ia.lt_iff hw, ic.lt_iff hw, i1.lt_iff hw]
      rw [if_neg (fun h => by linarith [h.1]), if_neg (by linarith), if_neg (by linarith)]
    rw [n1 v x hv (by linarith), n1 (-v) (-x) hv.neg (by linarith), neg_mul_neg', neg_div', neg_neg']
  rw [e]
  have := (tan_main_out hf hv.neg hr.neg (by linarith) (by linarith)).neg
  rwa [neg_neg] at this

/-! ## Reduction -/

theorem pi_val : ∃ P, Is (L PI : FV f) P ∧ Rep f P ∧ 31415 / 10000 ≤ P ∧ P ≤ 31417 / 10000 ∧ |(P:ℝ) - Real.pi| ≤ 64 / 10 * uro f := by
  obtain ⟨h, ih, rh, e⟩ := is_L_near (f := f) (q := PI) (by decide +kernel) (by decide +kernel)
  have b0 : (314159 / 100000 : ℚ) ≤ PI := by decide +kernel
  have b1 : PI ≤ (314160 / 100000 : ℚ) := by decide +kernel
  have hu := uro_pos f
  have hu7 := uro_le7 f
  have e' : |h - PI| ≤ 632 / 100 * uro f := by
    refine e.trans ?_
    have := mul_le_mul_of_nonneg_left b1 (show 0 ≤ 201 / 100 * uro f by positivity)
    linarith
  have h3 := abs_le.1 e'
  norm_num at hu7
  refine ⟨h, ih, rh, by linarith, by linarith, ?_⟩
  have er := (Rat.cast_le (K := ℝ)).2 e'
  push_cast at er
  have hp := PI_err
  have h4 := abs_add_le ((h:ℝ) - (PI : ℚ)) (((PI : ℚ) : ℝ) - Real.pi)
  rw [sub_add_sub_cancel] at h4
  have u64 := (Rat.cast_le (K := ℝ)).2 (uro_ge' f)
  push_cast at u64 hp
  norm_num only at u64 hp
  linarith

/-- one reduction step -/
theorem tan_reduce {v : FV f} {x P : ℚ} (hf : f.exact = false) (hv : Is v x) (hr : Rep f x) (ip : Is (L PI : FV f) P)
    (P0 : 31415 / 10000 ≤ P) (P1 : P ≤ 31417 / 10000) (hx0 : P < x) (hx1 : x ≤ 2 ^ 20) :
    ∃ (fl : FV f) (n : ℕ) (y b : ℚ), floor_check (v / L PI) = .ok fl ∧ Is (v - L PI * fl) y ∧ Rep f y ∧ 1 ≤ n ∧
      (P * n ≤ (1 + uro f) * x) ∧ x - P * n ≤ P + uro f * x ∧ |b - P * n| ≤ uro f * (P * n) ∧ |y - (x - b)| ≤ uro f * |x - b| ∧
      (y = 0 ∨ minNormal f ≤ |y|) := by
  have hu := uro_pos f
  have hu7 := uro_le7 f
  have u64 := uro_ge' f
  have P0' : 0 < P := by linarith
  have q1 : 1 ≤ x / P := by rw [le_div_iff₀ P0']; linarith
  have q2 : x / P ≤ 2 ^ 20 := by rw [div_le_iff₀ P0']; norm_num at hx1 ⊢; linarith
  have q0 : 0 < x / P := by linarith
  have mn := minNormal_le' f
  have iq := hv.div ip P0'.ne' (nov (by rw [abs_of_pos q0]; exact q2.trans (by norm_num)))
  have eq := rnd_err_rel (f := f) (q := x / P) (by rw [abs_of_pos q0]; exact mn.trans (le_trans (by norm_num) q1))
  rw [abs_of_pos q0] at eq
  have r1 : 1 ≤ rnd f (x / P) := le_rnd_of_rep (by have := rep_pow2_nat (f := f) (n := 0); simpa using this) q1
  have r2 : rnd f (x / P) ≤ 2 ^ 20 := rnd_le_of_rep rep_pow2_nat q2
  set q := rnd f (x / P) with hq
  obtain ⟨z, hz⟩ := iq
  have vq : Valid (fin q z : FV f) := by rw [← hz]; exact valid_div _ _
  have hfl := floor_check_eq hf vq (Or.inr (by rw [abs_of_pos (by linarith)]; exact mn.trans (le_trans (by norm_num) r1)))
  rw [← hz] at hfl
  have n1 : 1 ≤ ⌊q⌋ := Int.le_floor.2 (by exact_mod_cast r1)
  obtain ⟨n, hn⟩ : ∃ n : ℕ, ⌊q⌋ = n := ⟨⌊q⌋.toNat, (Int.toNat_of_nonneg (by omega)).symm⟩
  have hnq : ((⌊q⌋ : ℤ) : ℚ) = n := by rw [hn]; simp
  have f1 : (n:ℚ) ≤ q := by rw [← hnq]; exact Int.floor_le q
  have f2 : q < n + 1 := by rw [← hnq]; exact Int.lt_floor_add_one q
  have n1' : 1 ≤ n := by omega
  have n1q : (1:ℚ) ≤ n := by exact_mod_cast n1'
  have eq2 := abs_le.1 eq
  have c1 : P * n ≤ (1 + uro f) * x := by
    have h1 : (n:ℚ) ≤ (1 + uro f) * (x / P) := by linarith
    have h2 := mul_le_mul_of_nonneg_left h1 P0'.le
    have h3 : P * ((1 + uro f) * (x / P)) = (1 + uro f) * x := by field_simp
    linarith
  have c2 : x - P * n ≤ P + uro f * x := by
    have h1 : (1 - uro f) * (x / P) ≤ n + 1 := by linarith
    have h2 := mul_le_mul_of_nonneg_left h1 P0'.le
    have h3 : P * ((1 - uro f) * (x / P)) = (1 - uro f) * x := by field_simp
    linarith
  have ux : uro f * x ≤ 1 / 10 ^ 7 * 2 ^ 20 := mul_le_mul hu7 hx1 (by linarith) (by norm_num)
  norm_num at ux
  have Pn0 : 3 ≤ P * n := by nlinarith
  have Pn1 : P * n ≤ 2 ^ 20 + 1 := by norm_num at hx1 ⊢; linarith
  have Pn2 : P * n ≤ 2 ^ 21 := Pn1.trans (by norm_num)
  have inn : Is (fin (⌊q⌋:ℚ) z : FV f) n := by rw [hnq]; exact is_fin _ _
  have ib := ip.mul inn (nov (by rw [abs_of_pos (by linarith)]; exact Pn2.trans (by norm_num)))
  have eb := rnd_err_rel (f := f) (q := P * n) (by rw [abs_of_pos (by linarith)]; exact mn.trans (le_trans (by norm_num) Pn0))
  rw [abs_of_pos (show 0 < P * n by linarith)] at eb
  have b1 : 2 ≤ rnd f (P * n) := le_rnd_of_rep (by have := rep_pow2_nat (f := f) (n := 1); simpa using this) (by linarith)
  have b2 : rnd f (P * n) ≤ 2 ^ 21 := rnd_le_of_rep rep_pow2_nat Pn2
  have rb : Rep f (rnd f (P * n)) := rep_rnd _ _
  set b := rnd f (P * n) with hb
  have bx : |x - b| ≤ 2 ^ 22 := by
    rw [abs_le]; norm_num at b2 hx1 ⊢; constructor <;> linarith
  have iy := hv.sub ib (nov (bx.trans (by norm_num)))
  have ey := rnd_add_rel (f := f) hr rb.neg
  rw [← sub_eq_add_neg] at ey
  refine ⟨_, n, rnd f (x - b), b, hfl, iy, rep_rnd _ _, n1', c1, c2, eb, ey, ?_⟩
  rcases eq_or_ne x b with h | h
  · left; rw [h, sub_self, rnd_zero]
  · right
    have hd := rep_dist hf hr rb (by linarith) (by linarith) h
    have r2 : Rep f (2 * uro f) := by rw [← two_uro]; exact rep_pow2 (by have := emin_le_prec f; omega)
    rw [abs_rnd]
    refine le_trans ?_ (le_rnd_of_rep r2 hd)
    refine mn.trans ?_
    norm_num only at u64 ⊢; linarith

theorem tan_begin_stop (m : ℕ) {v : FV f} {x P : ℚ} (hv : Is v x) (ip : Is (L PI : FV f) P) (h : x ≤ P) :
    tan_begin m v = .ok (tan_cf_main v) := by
  rw [tan_begin.eq_def]
  dsimp only
  rw [if_neg (by rw [gt_iff_lt, ip.lt_iff hv]; exact not_lt.2 h)]

theorem tan_begin_go (m : ℕ) {v fl : FV f} {x P : ℚ} (hv : Is v x) (ip : Is (L PI : FV f) P) (h : P < x)
    (hfl : floor_check (v / L PI) = .ok fl) : tan_begin (m + 1) v = tan_begin m (v - L PI * fl) := by
  rw [tan_begin.eq_def]
  dsimp only
  rw [if_pos (by rw [gt_iff_lt, ip.lt_iff hv]; exact h)]
  simp only [hfl]; rfl

/-- shifting the angle by a multiple of π -/
theorem TanOut.shift {x y : ℚ} {v : FV f} {c c' : ℝ} (n : ℕ) (h : TanOut y v c) (hy : y = 0 ∨ minNormal f ≤ |y|)
    (hb : c * wro f * |(y:ℝ)| + |(y:ℝ) + n * Real.pi - x| ≤ c' * wro f * |(x:ℝ)|) : TanOut x v c' := by
  obtain ⟨r, θ, g1, g2, g3, g4, g5, g6⟩ := h
  refine ⟨r, θ + n * Real.pi, g1, by rw [Real.tan_add_nat_mul_pi, g2], ?_, ?_, g5, ?_⟩
  · rw [Real.cos_add_nat_mul_pi]
    exact mul_ne_zero (pow_ne_zero _ (by norm_num)) g3
  · have e : θ + n * Real.pi - x = (θ - y) + ((y:ℝ) + n * Real.pi - x) := by ring
    rw [e]
    refine (abs_add_le _ _).trans ?_
    linarith
  · rcases g6 with h | h | h
    · exact Or.inl h
    · exact Or.inr (Or.inl h)
    · rw [h]
      rcases hy with h | h
      · exact Or.inl h
      · exact Or.inr (Or.inl h)

theorem tan_begin_out {v : FV f} {x : ℚ} (hf : f.exact = false) (hv : Is v x) (hr : Rep f x) (hx0 : 0 ≤ x) (hx1 : x ≤ 2 ^ 20) :
    ∃ w, tan_begin 2 v = .ok w ∧ TanOut x w 20 := by
  obtain ⟨P, ip, rP, P0, P1, eP⟩ := pi_val (f := f)
  obtain ⟨hw0, hw1, huw⟩ := wro_cast f
  have hur : (0:ℝ) < uro f := by exact_mod_cast uro_pos f
  rcases le_or_gt x P with h | h
  · refine ⟨_, tan_begin_stop 2 hv ip h, ?_⟩
    obtain ⟨r, θ, g1, g2, g3, g4, g5, g6⟩ := tan_main_out hf hv hr hx0 (by linarith)
    refine ⟨r, θ, g1, g2, g3, g4.trans ?_, g5, g6⟩
    have : 0 ≤ (wro f:ℝ) * |(x:ℝ)| := by positivity
    linarith
  · obtain ⟨fl, n, y, b, hfl, iy, ry, n1, c1, c2, c3, c4, y0⟩ := tan_reduce hf hv hr ip P0 P1 h hx1
    rw [tan_begin_go 1 hv ip h hfl]
    have hu := uro_pos f
    have hu7 : uro f ≤ 1 / 10 ^ 7 := uro_le7 f
    have ux : uro f * x ≤ 1 / 10 ^ 7 * 2 ^ 20 := mul_le_mul hu7 hx1 hx0 (by norm_num)
    norm_num at ux hu7
    have n1q : (1:ℚ) ≤ n := by exact_mod_cast n1
    have Pn : P ≤ P * n := by nlinarith
    have c3' := abs_le.1 c3
    have c4' := abs_le.1 c4
    have uPn : uro f * (P * n) ≤ uro f * ((1 + uro f) * x) := mul_le_mul_of_nonneg_left c1 hu.le
    have uux : uro f * ((1 + uro f) * x) ≤ 1001 / 1000 * (uro f * x) := by
      have : (1 + uro f) * x ≤ 1001 / 1000 * x := mul_le_mul_of_nonneg_right (by linarith) hx0
      have := mul_le_mul_of_nonneg_left this hu.le
      linarith
    have ubig : uro f * 3 ≤ uro f * x := mul_le_mul_of_nonneg_left (by linarith) hu.le
    -- the difference before rounding
    have d1 : -(21 / 10 * (uro f * x)) ≤ x - b := by linarith
    have d2 : x - b ≤ P + 21 / 10 * (uro f * x) := by linarith
    have d3 : x - b ≤ x - 3 := by linarith
    have d4 : |x - b| ≤ x := by rw [abs_le]; constructor <;> linarith
    have ud : uro f * |x - b| ≤ uro f * x := mul_le_mul_of_nonneg_left d4 hu.le
    have y1 : -(31 / 10 * (uro f * x)) ≤ y := by linarith
    have y2 : y ≤ P + 31 / 10 * (uro f * x) := by linarith
    have y3 : |y| ≤ x := by rw [abs_le]; constructor <;> linarith
    have xr : (314 / 100:ℝ) ≤ x := by
      have : (314 / 100 : ℚ) ≤ x := by linarith
      have := (Rat.cast_le (K := ℝ)).2 this
      push_cast at this; exact this
    -- distance to the reduced exact argument
    have key : |(y:ℝ) + n * Real.pi - x| ≤ 41 / 10 * uro f * x := by
      have e : (y:ℝ) + n * Real.pi - x = ((y:ℝ) - (x - b)) + -(b - P * n) + -(n * (P - Real.pi)) := by ring
      rw [e]
      have k1 := (Rat.cast_le (K := ℝ)).2 (c4.trans ud)
      have k2 := (Rat.cast_le (K := ℝ)).2 (c3.trans (uPn.trans uux))
      push_cast at k1 k2
      have k3 : |(n:ℝ) * (P - Real.pi)| ≤ 2042 / 1000 * uro f * x := by
        rw [abs_mul, abs_of_nonneg (Nat.cast_nonneg n)]
        have k4 := mul_le_mul_of_nonneg_left eP (Nat.cast_nonneg (α := ℝ) n)
        have k5 : (31415 / 10000 : ℚ) * n ≤ 10001 / 10000 * x := by
          have : (31415 / 10000 : ℚ) * n ≤ P * n := mul_le_mul_of_nonneg_right P0 (by linarith)
          have h6 : (1 + uro f) * x ≤ 10001 / 10000 * x := mul_le_mul_of_nonneg_right (by linarith) hx0
          linarith
        have k6 := (Rat.cast_le (K := ℝ)).2 k5
        push_cast at k6
        have k7 := mul_le_mul_of_nonneg_left k6 hur.le
        have k8 : 0 ≤ (uro f:ℝ) * x := mul_nonneg hur.le (by linarith)
        linarith
      refine (abs_add_le _ _).trans ((add_le_add_left (abs_add_le _ _) _).trans ?_)
      rw [abs_neg, abs_neg]
      have : 0 ≤ (uro f:ℝ) * x := by positivity
      linarith
    have y3r : |(y:ℝ)| ≤ x := by have := (Rat.cast_le (K := ℝ)).2 y3; push_cast at this; exact this
    have wx : (uro f:ℝ) * x ≤ wro f * x := mul_le_mul_of_nonneg_right huw (by linarith)
    have wy := mul_le_mul_of_nonneg_left y3r hw0.le
    have wx0 : 0 ≤ (wro f:ℝ) * x := mul_nonneg hw0.le (by linarith)
    have ax : |(x:ℝ)| = x := abs_of_pos (by linarith)
    rcases le_or_gt y P with hy | hy
    · refine ⟨_, tan_begin_stop 1 iy ip hy, ?_⟩
      have out : TanOut y (tan_cf_main (v - L PI * fl)) 15 := by
        rcases le_or_gt 0 y with hy0 | hy0
        · exact tan_main_out hf iy ry hy0 (by linarith)
        · exact tan_main_out_neg hf iy ry (by linarith) hy0
      refine out.shift n y0 ?_
      rw [ax]; linarith
    · -- the first reduction fell short of π
      obtain ⟨fl2, m, y', b', hfl2, iy', ry', m1, e1, e2, e3, e4, y0'⟩ := tan_reduce hf iy ry ip P0 P1 hy (by norm_num; linarith)
      rw [tan_begin_go 0 iy ip hy hfl2]
      have uy : uro f * y ≤ 1 / 10 := by
        have : uro f * y ≤ 1 / 10000000 * 10 := mul_le_mul hu7 (by linarith) (by linarith) (by norm_num)
        linarith
      have hm : m = 1 := by
        by_contra hne
        have : (2:ℚ) ≤ m := by exact_mod_cast (by omega : 2 ≤ m)
        have := mul_le_mul_of_nonneg_left this (show 0 ≤ P by linarith)
        linarith
      subst hm
      have e3' := abs_le.1 e3
      have e4' := abs_le.1 e4
      push_cast at e1 e2 e3 e3'
      rw [mul_one] at e1 e2 e3 e3'
      have uP : uro f * P ≤ 4 / 10000000 := by
        have : uro f * P ≤ 1 / 10000000 * 4 := mul_le_mul hu7 (by linarith) (by linarith) (by norm_num)
        linarith
      have yb : |y - b'| ≤ 1 := by rw [abs_le]; constructor <;> linarith
      have uyb : uro f * |y - b'| ≤ uro f := by have := mul_le_mul_of_nonneg_left yb hu.le; linarith
      have y'1 : |y'| ≤ 1 := by rw [abs_le]; constructor <;> linarith
      have y'P : y' ≤ P := by linarith [(abs_le.1 y'1).2]
      refine ⟨_, tan_begin_stop 0 iy' ip y'P, ?_⟩
      have out : TanOut y' (tan_cf_main (v - L PI * fl - L PI * fl2)) 15 := by
        rcases le_or_gt 0 y' with hy0 | hy0
        · exact tan_main_out hf iy' ry' hy0 (by linarith)
        · exact tan_main_out_neg hf iy' ry' (by linarith [(abs_le.1 y'1).1]) hy0
      refine out.shift (n + 1) y0' ?_
      have key2 : |(y':ℝ) + Real.pi - y| ≤ 11 * uro f := by
        have e : (y':ℝ) + Real.pi - y = ((y':ℝ) - (y - b')) + -(b' - P) + -(P - Real.pi) := by ring
        rw [e]
        have k1 := (Rat.cast_le (K := ℝ)).2 (e4.trans uyb)
        have k2 := (Rat.cast_le (K := ℝ)).2 (e3.trans (mul_le_mul_of_nonneg_left P1 hu.le))
        push_cast at k1 k2
        refine (abs_add_le _ _).trans ((add_le_add_left (abs_add_le _ _) _).trans ?_)
        rw [abs_neg, abs_neg]
        linarith
      have e : (y':ℝ) + ((n + 1 : ℕ) : ℝ) * Real.pi - x = ((y':ℝ) + Real.pi - y) + ((y:ℝ) + n * Real.pi - x) := by push_cast; ring
      rw [e, ax]
      have k3 := abs_add_le ((y':ℝ) + Real.pi - y) ((y:ℝ) + n * Real.pi - x)
      have y'r : |(y':ℝ)| ≤ 1 := by have := (Rat.cast_le (K := ℝ)).2 y'1; push_cast at this; exact this
      have k4 := mul_le_mul_of_nonneg_left y'r (show 0 ≤ 15 * (wro f:ℝ) by positivity)
      have k5 := mul_le_mul_of_nonneg_left xr hw0.le
      linarith

end Gcem
