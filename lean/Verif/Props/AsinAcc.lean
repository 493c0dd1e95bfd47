import Verif.Analysis.ArctanReal
import Verif.Props.AtanAcc
import Verif.Props.TrigAcc
import Verif.Props.Sqrt
import Verif.Props.ExpAcc
import Mathlib.Analysis.SpecialFunctions.Complex.Arg
import Mathlib.Analysis.Real.Pi.Bounds

/-!
# Accuracy of asin, acos and atan2
-/

namespace Gcem
open FV Props
variable {f : Fmt}

theorem uro_lt_of_lt_one {x : ℚ} (hf : f.exact = false) (hr : Rep f x) (h1 : x < 1) (h0 : 1 / 2 ≤ x) : uro f ≤ 1 - x := by
  have h2 : Rep f 2 := by have := rep_pow2_nat (f := f) (n := 1); simpa using this
  have := rep_dist hf (rep_double hr) h2 (by linarith) (by norm_num) (by linarith)
  rw [abs_of_neg (by linarith)] at this
  linarith

/-- the computed leg `√(1 - x²)` -/
theorem leg_acc {x : ℚ} {z : Bool} (hf : f.exact = false) (hr : Rep f x) (h0 : 1 / 2 ^ 40 ≤ x) (h1 : x < 1) :
    ∃ (S : ℚ) (c2 : ℝ) (σ : ℝ), sqrt (i 1 - fin x z * fin x z : FV f) = .ok (fin S false) ∧ 0 < c2 ∧ |σ| ≤ 36 / 10 * uro f ∧
      (S:ℝ) = c2 * (1 + σ) ∧ |c2 ^ 2 - (1 - (x:ℝ) ^ 2)| ≤ uro f * (x:ℝ) ^ 2 ∧ c2 ≤ 1 ∧ (uro f : ℝ) ≤ 1 - (x:ℝ) ^ 2 ∧
      (51 / 100 * (1 - (x:ℝ)^2) ≥ uro f * (x:ℝ) ^ 2) ∧ (uro f : ℝ) / 2 ≤ c2 ^ 2 := by
  have hu := uro_pos f
  have hu7 := uro_le7 f
  have hmn := minNormal_le' f
  have hx0 : 0 < x := lt_of_lt_of_le (by norm_num) h0
  have hxx0 : 1 / 2 ^ 80 ≤ x * x := by
    have := mul_le_mul h0 h0 (by norm_num) hx0.le
    norm_num at this ⊢; linarith
  have hxx1 : x * x ≤ 1 - 19999 / 10000 * uro f := by
    rcases le_or_gt (1 / 2) x with h | h
    · have := uro_lt_of_lt_one hf hr h1 h
      have h2 : x ≤ 1 - uro f := by linarith
      have h3 := mul_le_mul h2 h2 hx0.le (by linarith)
      nlinarith
    · have h3 := mul_le_mul h.le h.le hx0.le (by norm_num)
      norm_num at hu7; linarith
  have i1 : Is (i 1 : FV f) 1 := by simpa using is_i (f := f) (n := 1) (by norm_num)
  have ixx := (is_fin (f := f) x z).mul (is_fin x z) (nov (by rw [abs_of_pos (by linarith)]; exact le_trans (by linarith) (show (1:ℚ) ≤ 2 ^ 127 by norm_num)))
  have e1 := rnd_err_rel (f := f) (q := x * x) (by
    rw [abs_of_pos (by linarith)]; exact hmn.trans (le_trans (by norm_num) hxx0))
  rw [abs_of_pos (show 0 < x * x by linarith)] at e1
  have hw0 : 0 ≤ rnd f (x * x) := rnd_nonneg (by linarith)
  have hw := rep_rnd f (x * x)
  generalize rnd f (x * x) = w at *
  have huu : uro f * (x * x) ≤ uro f * 1 := mul_le_mul_of_nonneg_left (by linarith) hu.le
  have h1w : 999 / 1000 * uro f ≤ 1 - w := by have := (abs_le.1 e1).2; linarith
  have iq := i1.sub ixx (nov (by rw [abs_of_pos (by linarith)]; exact le_trans (by linarith) (show (1:ℚ) ≤ 2 ^ 127 by norm_num)))
  have e2 := rnd_add_rel (f := f) rep_one hw.neg
  rw [← sub_eq_add_neg, abs_of_pos (show 0 < 1 - w by linarith)] at e2
  obtain ⟨qz, eq⟩ := iq
  have vq : Valid (fin (rnd f (1 - w)) qz : FV f) := eq ▸ valid_sub _ _
  have hq1 : rnd f (1 - w) ≤ 1 := rnd_le_of_rep rep_one (by linarith)
  rw [eq]
  generalize rnd f (1 - w) = q at *
  have huw : uro f * (1 - w) ≤ 1 / 10 ^ 7 * (1 - w) := mul_le_mul_of_nonneg_right hu7 (by linarith)
  have hq0 : 9 / 10 * uro f ≤ q := by have := (abs_le.1 e2).1; norm_num at huw; linarith
  have hu120 : 1 / 2 ^ 70 ≤ uro f := by rcases f with ⟨⟨⟩, ⟨⟩⟩ <;> decide +kernel
  have hmu : minNormal f ≤ 1 / 10 * uro f :=
    hmn.trans (le_trans (by norm_num) (mul_le_mul_of_nonneg_left hu120 (by norm_num : (0:ℚ) ≤ 1 / 10)))
  obtain ⟨S, eS, hS⟩ := C26_upto4 hf q qz vq (by linarith) (by norm_num at hu120 ⊢; linarith) (by linarith)
  -- over the reals
  have hur : (0:ℝ) < uro f := by exact_mod_cast hu
  have hur7 : (uro f:ℝ) ≤ 1 / 10 ^ 7 := by have := (Rat.cast_le (K := ℝ)).2 hu7; push_cast at this; exact this
  have e1r := (Rat.cast_le (K := ℝ)).2 e1
  have e2r := (Rat.cast_le (K := ℝ)).2 e2
  have h1wr := (Rat.cast_le (K := ℝ)).2 h1w
  have hxxr := (Rat.cast_le (K := ℝ)).2 hxx1
  push_cast at e1r e2r h1wr hxxr
  have hw0r : (0:ℝ) ≤ w := by exact_mod_cast hw0
  have hwp : (0:ℝ) < 1 - w := by linarith
  have hc2 : 0 < √(1 - (w:ℝ)) := Real.sqrt_pos.2 hwp
  have hc2s : √(1 - (w:ℝ)) ^ 2 = 1 - w := Real.sq_sqrt hwp.le
  obtain ⟨η, hη, eη⟩ := exists_rel (r := q) (q := 1 - (w:ℝ)) hur.le (by rw [abs_of_pos hwp]; exact e2r)
  obtain ⟨η1, η2⟩ := abs_le.1 hη
  rw [eη, Real.sqrt_mul hwp.le, show (3:ℝ) / 2 ^ f.prec = 3 * uro f by rw [uro_eq]; ring] at hS
  have hη0 : 0 < 1 + η := by linarith
  have hρ0 := Real.sqrt_nonneg (1 + η)
  have hρs : √(1 + η) * √(1 + η) = 1 + η := Real.mul_self_sqrt hη0.le
  generalize √(1 + η) = ρ at *
  have hρ1 : |ρ - 1| ≤ 51 / 100 * uro f := by
    have hρlo : 99 / 100 ≤ ρ := by
      by_contra hc; push Not at hc
      have := mul_lt_mul'' hc hc hρ0 hρ0
      linarith
    have k : (ρ - 1) * (ρ + 1) = η := by linarith
    have k2 : |ρ - 1| * (ρ + 1) ≤ uro f := by
      rw [← abs_of_pos (show 0 < ρ + 1 by linarith), ← abs_mul, k]; exact hη
    have k3 : |ρ - 1| * (199 / 100) ≤ |ρ - 1| * (ρ + 1) := mul_le_mul_of_nonneg_left (by linarith) (abs_nonneg _)
    linarith
  generalize √(1 - (w:ℝ)) = c2 at *
  have hρ2 := abs_le.1 hρ1
  refine ⟨S, c2, S / c2 - 1, eS, hc2, ?_, by field_simp; ring, ?_, ?_, by linarith, ?_, by rw [hc2s]; linarith⟩
  · have k : (S:ℝ) / c2 - 1 = (S - c2 * ρ) / c2 + (ρ - 1) := by field_simp; ring
    rw [k]
    refine (abs_add_le _ _).trans ?_
    have k2 : |((S:ℝ) - c2 * ρ) / c2| ≤ 3 * uro f * ρ := by
      rw [abs_div, abs_of_pos hc2, div_le_iff₀ hc2]; linarith
    have k3 : (uro f:ℝ) * ρ ≤ uro f * (101 / 100) := mul_le_mul_of_nonneg_left (by linarith) hur.le
    linarith
  · rw [hc2s, show (1 - (w:ℝ)) - (1 - (x:ℝ) ^ 2) = -(w - x * x) by ring, abs_neg, sq]; exact e1r
  · nlinarith
  · rw [sq]; nlinarith

theorem leg_bound {x u c c2 : ℝ} (hx : 0 < x) (hu : 0 ≤ u) (hc : 0 < c) (hc2 : 0 < c2) (hcs : c ^ 2 = 1 - x ^ 2)
    (h1 : |c2 ^ 2 - (1 - x ^ 2)| ≤ u * x ^ 2) (h2 : 51 / 100 * (1 - x ^ 2) ≥ u * x ^ 2) :
    x * |c - c2| / (c * c2 + x ^ 2) ≤ 9 / 10 * u * x ^ 3 / c := by
  rw [← hcs] at h1 h2
  have hlo : 7 / 10 * c ≤ c2 := by
    by_contra hk; push Not at hk
    have := mul_lt_mul'' hk hk hc2.le hc2.le
    have h3 := (abs_le.1 h1).1
    nlinarith
  have k1 : |c - c2| * (17 / 10 * c) ≤ u * x ^ 2 := by
    have e : |c - c2| * (c + c2) = |c2 ^ 2 - c ^ 2| := by
      rw [← abs_of_pos (show 0 < c + c2 by linarith), ← abs_mul, ← abs_neg]; congr 1; ring
    have : |c - c2| * (17 / 10 * c) ≤ |c - c2| * (c + c2) := mul_le_mul_of_nonneg_left (by linarith) (abs_nonneg _)
    rw [e] at this; linarith
  have k2 : 7 / 10 ≤ c * c2 + x ^ 2 := by
    have : c * (7 / 10 * c) ≤ c * c2 := mul_le_mul_of_nonneg_left hlo hc.le
    nlinarith [sq_nonneg x]
  rw [div_le_div_iff₀ (by linarith) hc]
  have k3 : x * (|c - c2| * (17 / 10 * c)) ≤ x * (u * x ^ 2) := mul_le_mul_of_nonneg_left k1 hx.le
  have k4 : (9 / 10 * u * x ^ 3) * (7 / 10) ≤ (9 / 10 * u * x ^ 3) * (c * c2 + x ^ 2) := mul_le_mul_of_nonneg_left k2 (by positivity)
  have : 0 ≤ u * x ^ 3 := by positivity
  nlinarith

theorem uro_ge70 (f : Fmt) : 1 / 2 ^ 65 ≤ uro f := by rcases f with ⟨⟨⟩, ⟨⟩⟩ <;> decide +kernel

/-- both ranges of the leg -/
theorem leg_all {x : ℚ} {z : Bool} (hf : f.exact = false) (hx : Valid (fin x z : FV f)) (h0 : minNormal f ≤ x) (h1 : x < 1) :
    ∃ (S : ℚ) (c2 σ : ℝ), sqrt (i 1 - fin x z * fin x z : FV f) = .ok (fin S false) ∧ 0 < c2 ∧ |σ| ≤ 36 / 10 * uro f ∧
      (S:ℝ) = c2 * (1 + σ) ∧
      x * |√(1 - (x:ℝ) ^ 2) - c2| / (√(1 - (x:ℝ) ^ 2) * c2 + x ^ 2) ≤ 9 / 10 * uro f * (x:ℝ) ^ 3 / √(1 - (x:ℝ) ^ 2) + uro f / 1000 * x ∧
      minNormal f ≤ x / S ∧ 1 / 2 ^ 40 ≤ S ∧ S ≤ 11 / 10 := by
  have hmp := FV.minNormal_pos f
  have hmn := minNormal_le' f
  have hxp : 0 < x := by linarith
  have hxr : (0:ℝ) < x := by exact_mod_cast hxp
  have h1r : (x:ℝ) < 1 := by exact_mod_cast h1
  have hu := uro_pos f
  have hur : (0:ℝ) < uro f := by exact_mod_cast hu
  have hur7 : (uro f:ℝ) ≤ 1 / 10 ^ 7 := by have := (Rat.cast_le (K := ℝ)).2 (uro_le7 f); push_cast at this; exact this
  have hu65 := (Rat.cast_le (K := ℝ)).2 (uro_ge70 f)
  push_cast at hu65
  have hcp : (0:ℝ) < 1 - (x:ℝ) ^ 2 := by nlinarith
  have hc0 : 0 < √(1 - (x:ℝ) ^ 2) := Real.sqrt_pos.2 hcp
  have hcs : √(1 - (x:ℝ) ^ 2) ^ 2 = 1 - (x:ℝ) ^ 2 := Real.sq_sqrt hcp.le
  rcases le_or_gt (1 / 2 ^ 40) x with h | h
  · obtain ⟨S, c2, σ, e, p, hσ, eS, b1, b2, b3, b4, b5⟩ := leg_acc (z := z) hf hx.rep h h1
    have hσ' := abs_le.1 hσ
    have hk := leg_bound hxr hur.le hc0 p hcs b1 b4
    have hSp : (S:ℝ) ≤ 11 / 10 := by rw [eS]; nlinarith
    have hSl : (1:ℝ) / 2 ^ 40 ≤ S := by
      have : (1:ℝ) / 2 ^ 39 ≤ c2 := by
        by_contra hk; push Not at hk
        have := mul_lt_mul'' hk hk p.le p.le
        rw [sq] at b5
        norm_num at this hu65
        linarith
      rw [eS]
      have : (1:ℝ) / 2 ^ 39 * (1 / 2) ≤ c2 * (1 + σ) := mul_le_mul this (by linarith) (by norm_num) p.le
      norm_num at this ⊢; linarith
    have hSp' : S ≤ 11 / 10 := by have : ((S:ℚ):ℝ) ≤ ((11 / 10 : ℚ) : ℝ) := by push_cast; exact hSp
                                  exact_mod_cast this
    have hSl' : 1 / 2 ^ 40 ≤ S := by have : ((1 / 2 ^ 40:ℚ):ℝ) ≤ ((S : ℚ) : ℝ) := by push_cast; exact hSl
                                     exact_mod_cast this
    refine ⟨S, c2, σ, e, p, hσ, eS, ?_, ?_, hSl', hSp'⟩
    · have : 0 ≤ (uro f / 1000 * x : ℝ) := by positivity
      linarith
    · have hS0 : 0 < S := lt_of_lt_of_le (by norm_num) hSl'
      rw [le_div_iff₀ hS0]
      have : minNormal f * S ≤ 1 / 2 ^ 125 * (11 / 10) := mul_le_mul hmn hSp' hS0.le (by norm_num)
      norm_num at this h ⊢; linarith
  · have hxx : x * x ≤ 1 / 2 ^ 80 := by
      have := mul_le_mul h.le h.le hxp.le (by norm_num); norm_num at this ⊢; linarith
    have hxx0 : 0 ≤ x * x := by positivity
    have i1 : Is (i 1 : FV f) 1 := by simpa using is_i (f := f) (n := 1) (by norm_num)
    have ixx := (is_fin (f := f) x z).mul (is_fin x z) (nov (by rw [abs_of_nonneg hxx0]; exact hxx.trans (by norm_num)))
    have hw1 : rnd f (x * x) ≤ 1 / 2 ^ 80 := rnd_le_of_rep (rep_inv_pow2 (by norm_num)) hxx
    have hw0 : 0 ≤ rnd f (x * x) := rnd_nonneg hxx0
    have hone := rnd_one_sub hf hw0 (hw1.trans (by norm_num))
    obtain ⟨qz, eq⟩ := i1.sub ixx (by rw [hone]; exact nov' (by norm_num))
    rw [hone] at eq
    have vq : Valid (fin 1 qz : FV f) := eq ▸ valid_sub _ _
    have hz : qz = false := vq.z_false (by norm_num)
    subst hz
    refine ⟨1, 1, 0, by rw [eq]; exact C25_special.2.2.2.2, one_pos, by simp; positivity, by norm_num, ?_, by simpa using h0, by norm_num, by norm_num⟩
    have hc1 : √(1 - (x:ℝ) ^ 2) ≤ 1 := Real.sqrt_le_one.2 (by nlinarith)
    have hxxr := (Rat.cast_le (K := ℝ)).2 hxx
    push_cast at hxxr
    have hchalf : 1 / 2 ≤ √(1 - (x:ℝ) ^ 2) := Real.le_sqrt_of_sq_le (by norm_num at hxxr ⊢; nlinarith)
    generalize √(1 - (x:ℝ) ^ 2) = c at *
    have k0 : 0 ≤ 9 / 10 * (uro f:ℝ) * (x:ℝ) ^ 3 / c := by positivity
    have k1 : |c - 1| ≤ (x:ℝ) ^ 2 := by
      rw [abs_of_nonpos (by linarith)]; nlinarith
    rw [mul_one]
    refine le_trans ?_ (show (uro f:ℝ) / 1000 * x ≤ _ by linarith)
    rw [div_le_iff₀ (by positivity)]
    have k2 : (x:ℝ) * |c - 1| ≤ x * (1 / 2 ^ 80) := mul_le_mul_of_nonneg_left (k1.trans (by rw [sq]; exact hxxr)) hxr.le
    have k3 : (x:ℝ) * (1 / 2 ^ 80) ≤ x * (uro f / 2000) := mul_le_mul_of_nonneg_left (by norm_num at hu65 ⊢; linarith) hxr.le
    have k4 : (uro f:ℝ) / 1000 * x * (1 / 2) ≤ uro f / 1000 * x * (c + x ^ 2) := mul_le_mul_of_nonneg_left (by nlinarith [sq_nonneg (x:ℝ)]) (by positivity)
    linarith

/-- rounding the quotient of the legs and applying atan -/
theorem quot_atan {n d : ℚ} {v v' : FV f} (hf : f.exact = false) (hv : Is v n) (hv' : Is v' d) (hn : 0 < n) (hd : 0 < d)
    (hlo : minNormal f ≤ n / d) (hhi : n / d ≤ 3 / 4 * pow2 f.emax) {t ρ0 : ℝ} (ht : 0 < t) (hρ : |ρ0| ≤ 361 / 100 * uro f)
    (e : (n:ℝ) / d = t * (1 + ρ0)) :
    ∃ r w, atan (v / v') = fin r w ∧ ∃ T, |T - Real.arctan t| ≤ 463 / 100 * uro f * Real.arctan t ∧
      |(r:ℝ) - T| ≤ (11 * uro f + 163 / 10 ^ 19) * |T| := by
  have hu := uro_pos f
  have hur : (0:ℝ) < uro f := by exact_mod_cast hu
  have hur7 : (uro f:ℝ) ≤ 1 / 10 ^ 7 := by have := (Rat.cast_le (K := ℝ)).2 (uro_le7 f); push_cast at this; exact this
  have hq : 0 < n / d := by positivity
  obtain ⟨z, ez⟩ := hv.div hv' hd.ne' (nov_big (by rw [abs_of_pos hq]; exact hhi))
  have vT : Valid (fin (rnd f (n / d)) z : FV f) := ez ▸ valid_div _ _
  have hT0 : minNormal f ≤ rnd f (n / d) := le_rnd_of_rep (rep_minNormal f) hlo
  obtain ⟨τ, hτ, eτ⟩ := exists_rel_rnd (f := f) (q := n / d) (by rw [abs_of_pos hq]; exact hlo)
  obtain ⟨r, w, er, hr⟩ := C45_accuracy hf _ z vT (by rw [abs_of_nonneg (le_trans (FV.minNormal_pos f).le hT0)]; exact hT0)
  rw [← uro_eq] at hr
  refine ⟨r, w, by rw [ez]; exact er, Real.arctan (rnd f (n / d) : ℚ), ?_, hr⟩
  rw [eτ]
  push_cast
  rw [e, mul_assoc]
  have h1 := abs_le.1 hρ
  have h2 := abs_le.1 hτ
  have k : (1 + ρ0) * (1 + τ) = 1 + (ρ0 + τ + ρ0 * τ) := by ring
  rw [k]
  have k2 : |ρ0 * τ| ≤ 361 / 100 * uro f * (1 / 10 ^ 7) := by
    rw [abs_mul]; exact mul_le_mul hρ (hτ.trans hur7) (abs_nonneg _) (by positivity)
  have k3 : |ρ0 + τ + ρ0 * τ| ≤ 462 / 100 * uro f := by
    refine (abs_add_three _ _ _).trans ?_
    norm_num at k2 ⊢; linarith
  refine (arctan_scale ht k3 (by norm_num at hur7; linarith)).trans ?_
  refine mul_le_mul_of_nonneg_right ?_ (Real.arctan_pos.2 ht).le
  have hd1 : 0 < 1 - 462 / 100 * (uro f:ℝ) := by norm_num at hur7; linarith
  rw [div_le_iff₀ hd1]
  have : (uro f:ℝ) * uro f ≤ uro f * (1 / 10 ^ 7) := mul_le_mul_of_nonneg_left hur7 hur.le
  norm_num at this; linarith

theorem one_div_minNormal (f : Fmt) : 11 / 10 / minNormal f ≤ 3 / 4 * pow2 f.emax := by
  rcases f with ⟨⟨⟩, ⟨⟩⟩ <;> decide +kernel

theorem away_one {x : ℚ} {z : Bool} (hf : f.exact = false) (hr : Rep f x) (h0 : 0 ≤ x) (h1 : x < 1) :
    ¬ ((limMin : FV f) > fabs (fin x z - i 1)) := by
  have i1 : Is (i 1 : FV f) 1 := by simpa using is_i (f := f) (n := 1) (by norm_num)
  obtain ⟨z', e⟩ := (is_fin (f := f) x z).sub i1 (nov (by rw [abs_of_neg (by linarith)]; norm_num; linarith))
  rw [e, limMin_gt_fabs, abs_rnd, not_lt]
  refine le_rnd_of_rep (rep_minNormal f) ?_
  rw [abs_of_neg (by linarith)]
  have hl := minNormal_lt_uro f
  rcases le_or_gt (1 / 2) x with h | h
  · have := uro_lt_of_lt_one hf hr h1 h; linarith
  · have := minNormal_le' f; norm_num at this; linarith

theorem chain_num {u X φ D : ℝ} (hu : 0 ≤ u) (hu7 : u ≤ 1 / 10 ^ 7) (hX : 0 ≤ X) (hφ : 0 ≤ φ)
    (hD : D ≤ 91 / 100 * X + 1 / 10 * (u * φ)) :
    ((11 * u + 163 / 10 ^ 19) * (1 + 463 / 100 * u) + 463 / 100 * u) * φ
      + (1 + (11 * u + 163 / 10 ^ 19) * (1 + 463 / 100 * u) + 463 / 100 * u) * D
      ≤ (16 * u + 164 / 10 ^ 19) * φ + 92 / 100 * X := by
  have hE : (11 * u + 163 / 10 ^ 19) * (1 + 463 / 100 * u) + 463 / 100 * u ≤ 157 / 10 * u + 1631 / 10 ^ 20 := by
    have : u * u ≤ u * (1 / 10 ^ 7) := mul_le_mul_of_nonneg_left hu7 hu
    norm_num at this ⊢; linarith
  have hE0 : 0 ≤ (11 * u + 163 / 10 ^ 19) * (1 + 463 / 100 * u) + 463 / 100 * u := by positivity
  rw [add_assoc 1]
  generalize (11 * u + 163 / 10 ^ 19) * (1 + 463 / 100 * u) + 463 / 100 * u = E at hE hE0 ⊢
  have hE1 : E ≤ 1 / 10 ^ 5 := by norm_num at hu7 hE ⊢; linarith
  have h1 : E * φ ≤ (157 / 10 * u + 1631 / 10 ^ 20) * φ := mul_le_mul_of_nonneg_right hE hφ
  have h2 : (1 + E) * D ≤ (1 + E) * (91 / 100 * X + 1 / 10 * (u * φ)) := mul_le_mul_of_nonneg_left hD (by linarith)
  have hp : 0 ≤ 91 / 100 * X + 1 / 10 * (u * φ) := by positivity
  have h3 : (1 + E) * (91 / 100 * X + 1 / 10 * (u * φ)) ≤ (1 + 1 / 10 ^ 5) * (91 / 100 * X + 1 / 10 * (u * φ)) :=
    mul_le_mul_of_nonneg_right (by linarith) hp
  have hup : 0 ≤ u * φ := by positivity
  norm_num at h1 h3 ⊢; linarith

/-- asin and acos strictly between the smallest normal number and 1 -/
theorem asin_acos_core {x : ℚ} {z : Bool} (hf : f.exact = false) (hx : Valid (fin x z : FV f)) (h0 : minNormal f ≤ x) (h1 : x < 1) :
    ∃ r w s v, asin_compute (fin x z : FV f) = .ok (fin r w) ∧ acos_compute (fin x z : FV f) = .ok (fin s v) ∧
      |(r:ℝ) - Real.arcsin x| ≤ (16 * uro f + 164 / 10 ^ 19) * Real.arcsin x + 92 / 100 * (uro f * (x:ℝ) ^ 3 / √(1 - (x:ℝ) ^ 2)) ∧
      |(s:ℝ) - Real.arccos x| ≤ (16 * uro f + 164 / 10 ^ 19) * Real.arccos x + 92 / 100 * (uro f * (x:ℝ) ^ 3 / √(1 - (x:ℝ) ^ 2)) := by
  have hmp := FV.minNormal_pos f
  have hxp : 0 < x := by linarith
  have hxr : (0:ℝ) < x := by exact_mod_cast hxp
  have h1r : (x:ℝ) < 1 := by exact_mod_cast h1
  have hur : (0:ℝ) < uro f := by exact_mod_cast uro_pos f
  have hur7 : (uro f:ℝ) ≤ 1 / 10 ^ 7 := by have := (Rat.cast_le (K := ℝ)).2 (uro_le7 f); push_cast at this; exact this
  have hcp : (0:ℝ) < 1 - (x:ℝ) ^ 2 := by nlinarith
  have hc0 : 0 < √(1 - (x:ℝ) ^ 2) := Real.sqrt_pos.2 hcp
  have hc1 : √(1 - (x:ℝ) ^ 2) ≤ 1 := Real.sqrt_le_one.2 (by nlinarith)
  obtain ⟨S, c2, σ, eS, p, hσ, hS, hD, n1, n2, n3⟩ := leg_all hf hx h0 h1
  have hS0 : 0 < S := lt_of_lt_of_le (by norm_num) n2
  have i1 : Is (i 1 : FV f) 1 := by simpa using is_i (f := f) (n := 1) (by norm_num)
  have hσ' := abs_le.1 hσ
  have h1σ : 0 < 1 + σ := by norm_num at hur7; linarith
  -- asin
  obtain ⟨r, w, er, T, t1, t2⟩ := quot_atan (t := x / c2) (ρ0 := -σ / (1 + σ)) hf (is_fin (f := f) x z) (is_fin S false) hxp hS0 n1 (by
      rw [div_le_iff₀ hS0]
      have hb : (1:ℚ) ≤ 3 / 4 * pow2 f.emax * (1 / 2 ^ 40) := by rcases f with ⟨⟨⟩, ⟨⟩⟩ <;> decide +kernel
      have : 3 / 4 * pow2 f.emax * (1 / 2 ^ 40) ≤ 3 / 4 * pow2 f.emax * S :=
        mul_le_mul_of_nonneg_left n2 (by have := pow2_pos f.emax; positivity)
      linarith) (by positivity) (by
      rw [abs_div, abs_neg, abs_of_pos h1σ, div_le_iff₀ h1σ]
      have : (uro f:ℝ) * (1 - 1 / 10 ^ 3) ≤ uro f * (1 + σ) := mul_le_mul_of_nonneg_left (by norm_num at hur7 ⊢; linarith) hur.le
      norm_num at this ⊢; linarith) (by rw [hS]; field_simp; ring)
  obtain ⟨s, v, es, T', t1', t2'⟩ := quot_atan (t := c2 / x) (ρ0 := σ) hf (is_fin (f := f) S false) (is_fin x z) hS0 hxp (by
      rw [le_div_iff₀ hxp]
      have := minNormal_le' f
      have : minNormal f * x ≤ 1 / 2 ^ 125 * 1 := mul_le_mul this h1.le hxp.le (by norm_num)
      norm_num at this n2 ⊢; linarith) (by
      rw [div_le_iff₀ hxp]
      have := one_div_minNormal f
      rw [div_le_iff₀ hmp] at this
      have h3 : 3 / 4 * pow2 f.emax * minNormal f ≤ 3 / 4 * pow2 f.emax * x :=
        mul_le_mul_of_nonneg_left h0 (by have := pow2_pos f.emax; positivity)
      linarith) (by positivity) (hσ.trans (by linarith)) (by rw [hS]; ring)
  obtain ⟨l1, l2⟩ := arctan_leg hxr hc0 p
  have hg1 : ¬ ((fin x z : FV f) > i 1) := by
    rw [gt_iff, i1.lt_iff (is_fin x z)]; linarith
  have hg1' : ¬ (fabs (fin x z : FV f) > i 1) := by
    rw [gt_iff, i1.lt_iff (is_fin x z).fabs, abs_of_pos hxp]; linarith
  have hg2 := away_one (z := z) hf hx.rep hxp.le h1
  have hg3 : ¬ ((limMin : FV f) > fabs (fin x z)) := by rw [limMin_gt_fabs, abs_of_pos hxp]; linarith
  refine ⟨r, w, s, v, ?_, ?_, ?_, ?_⟩
  · unfold asin_compute
    rw [if_neg hg1, if_neg hg2, if_neg hg3, eS]
    show Except.ok (atan _) = _
    rw [er]
  · unfold acos_compute
    rw [if_neg hg1', if_neg hg2, if_neg hg3, eS]
    show Except.ok (atan _) = _
    rw [es]
  · have hφ : (x:ℝ) ≤ Real.arcsin x := by
      have := Real.sin_le (Real.arcsin_nonneg.2 hxr.le)
      rwa [Real.sin_arcsin (by linarith) h1r.le] at this
    have k := arctan_chain (Real.arctan_pos.2 (by positivity)).le (l1.trans hD) t1 t2 (by positivity) (by positivity)
    rw [← Real.arcsin_eq_arctan ⟨by linarith, h1r⟩] at k
    refine k.trans ?_
    refine chain_num hur.le hur7 (by positivity) (by linarith) ?_
    have : (uro f:ℝ) / 1000 * x ≤ uro f / 1000 * Real.arcsin x := mul_le_mul_of_nonneg_left hφ (by positivity)
    have h9 : 0 ≤ (uro f:ℝ) * (x:ℝ) ^ 3 / √(1 - (x:ℝ) ^ 2) := by positivity
    have e9 : 9 / 10 * uro f * (x:ℝ) ^ 3 / √(1 - (x:ℝ) ^ 2) = 9 / 10 * ((uro f:ℝ) * (x:ℝ) ^ 3 / √(1 - (x:ℝ) ^ 2)) := by ring
    rw [e9]
    have : 0 ≤ uro f * Real.arcsin x := mul_nonneg hur.le (by linarith)
    linarith
  · have k := arctan_chain (Real.arctan_pos.2 (by positivity)).le (l2.trans hD) t1' t2' (by positivity) (by positivity)
    rw [← Real.arccos_eq_arctan hxr] at k
    refine k.trans ?_
    have h9 : 0 ≤ (uro f:ℝ) * (x:ℝ) ^ 3 / √(1 - (x:ℝ) ^ 2) := by positivity
    refine chain_num hur.le hur7 h9 (Real.arccos_nonneg _) ?_
    have e9 : 9 / 10 * uro f * (x:ℝ) ^ 3 / √(1 - (x:ℝ) ^ 2) = 9 / 10 * ((uro f:ℝ) * (x:ℝ) ^ 3 / √(1 - (x:ℝ) ^ 2)) := by ring
    rw [e9]
    have hψ : 0 ≤ uro f * Real.arccos x := mul_nonneg hur.le (Real.arccos_nonneg _)
    rcases le_or_gt (1 / 2 : ℝ) x with h | h
    · have h3 : (x:ℝ) * (1 / 4) ≤ x ^ 3 := by nlinarith [mul_nonneg (sub_nonneg.2 h) hxr.le]
      have h4 : (uro f:ℝ) * (x:ℝ) ^ 3 ≤ uro f * (x:ℝ) ^ 3 / √(1 - (x:ℝ) ^ 2) := by
        rw [le_div_iff₀ hc0]
        exact mul_le_of_le_one_right (by positivity) hc1
      have h5 := mul_le_mul_of_nonneg_left h3 hur.le
      linarith
    · have h2 : (1:ℝ) ≤ Real.arccos x := by
        have := Real.arccos_le_arccos h.le
        rw [← Real.cos_pi_div_three, Real.arccos_cos (by positivity) (by linarith [Real.pi_pos])] at this
        linarith [Real.pi_gt_d2]
      have h5 : (uro f:ℝ) * x ≤ uro f * Real.arccos x := mul_le_mul_of_nonneg_left (by linarith) hur.le
      linarith

theorem asin_nonneg_eq {x : ℚ} {z : Bool} (h : 0 ≤ x) : asin (fin x z : FV f) = asin_compute (fin x z) := by
  unfold asin asin_check
  rw [if_neg (by simp), if_neg (by rw [i_zero, fin_lt]; linarith)]

theorem acos_pos_eq {x : ℚ} {z : Bool} (h : 0 < x) : acos (fin x z : FV f) = acos_compute (fin x z) := by
  unfold acos acos_check
  rw [if_neg (by simp), if_pos (by rw [i_zero, gt_iff, fin_lt]; exact h)]

theorem L_PI_rep : ∃ P z, (L PI : FV f) = fin P z ∧ Rep f P ∧ 31415 / 10000 ≤ P ∧ P ≤ 31417 / 10000 ∧ |(P:ℝ) - Real.pi| ≤ 64 / 10 * uro f := by
  obtain ⟨P, ⟨z, e⟩, h⟩ := pi_val (f := f)
  exact ⟨P, z, e, h⟩

/-- subtracting from the stored π -/
theorem pi_sub_acc {s : ℚ} {v : FV f} {ψ : ℝ} (hv : Is v s) (hb : |s| ≤ 4) :
    ∃ r, Is (L PI - v) r ∧ Is (v - L PI) (-r) ∧ (∀ v' : FV f, Is v' (-s) → Is (v' + L PI) r) ∧
      |(r:ℝ) - (Real.pi - ψ)| ≤ (1 + uro f) * (|(s:ℝ) - ψ| + 64 / 10 * uro f) + uro f * |Real.pi - ψ| + uro f / 1000 := by
  obtain ⟨P, zP, eP, rP, p0, p1, pe⟩ := L_PI_rep (f := f)
  have hur : (0:ℝ) < uro f := by exact_mod_cast uro_pos f
  have hb' := abs_le.1 hb
  have iP : Is (L PI : FV f) P := ⟨zP, eP⟩
  have no : ∀ q : ℚ, |q| ≤ 8 → overflows f (rnd f q) = false := fun q hq => nov (by norm_num; linarith)
  refine ⟨rnd f (P - s), iP.sub hv (no _ (by rw [abs_le]; constructor <;> linarith)), ?_, ?_, ?_⟩
  · have := hv.sub iP (no _ (by rw [abs_le]; constructor <;> linarith))
    rwa [← neg_sub P s, rnd_neg] at this
  · intro v' hv'
    have := hv'.add iP (no _ (by rw [abs_le]; constructor <;> linarith))
    rwa [neg_add_eq_sub] at this
  have h1 := (rnd_err_all (f := f) (P - s)).trans (add_le_add_right (half_emin_uro f) _)
  have h2 := (Rat.cast_le (K := ℝ)).2 h1
  push_cast at h2
  have h3 : |(P:ℝ) - s - (Real.pi - ψ)| ≤ |(s:ℝ) - ψ| + 64 / 10 * uro f := by
    have : (P:ℝ) - s - (Real.pi - ψ) = (P - Real.pi) - (s - ψ) := by ring
    rw [this]; exact (abs_sub _ _).trans (by linarith)
  have h4 : |(P:ℝ) - s| ≤ |(P:ℝ) - s - (Real.pi - ψ)| + |Real.pi - ψ| := by
    have := abs_add_le ((P:ℝ) - s - (Real.pi - ψ)) (Real.pi - ψ); rwa [sub_add_cancel] at this
  have h5 : |((rnd f (P - s) : ℚ):ℝ) - (Real.pi - ψ)| ≤ |((rnd f (P - s) : ℚ):ℝ) - (P - s)| + |(P:ℝ) - s - (Real.pi - ψ)| := by
    have := abs_add_le (((rnd f (P - s) : ℚ):ℝ) - (P - s)) ((P:ℝ) - s - (Real.pi - ψ)); rwa [sub_add_sub_cancel] at this
  have h6 := mul_le_mul_of_nonneg_left h4 hur.le
  have h7 := mul_le_mul_of_nonneg_left h3 hur.le
  linarith

theorem arctan_sub_rnd (q : ℚ) :
    |Real.arctan (rnd f q : ℚ) - Real.arctan q| = |Real.arctan (rnd f |q| : ℚ) - Real.arctan (|(q:ℝ)|)| := by
  rcases le_total 0 q with h | h
  · have : (0:ℝ) ≤ q := by exact_mod_cast h
    rw [abs_of_nonneg h, abs_of_nonneg this]
  · have : (q:ℝ) ≤ 0 := by exact_mod_cast h
    rw [abs_of_nonpos h, abs_of_nonpos this, rnd_neg, Rat.cast_neg, Real.arctan_neg, Real.arctan_neg, ← abs_neg]
    ring_nf

theorem abs_arctan (q : ℝ) : |Real.arctan q| = Real.arctan |q| := by
  rcases le_total 0 q with h | h
  · rw [abs_of_nonneg h, abs_of_nonneg (Real.arctan_nonneg.2 h)]
  · rw [abs_of_nonpos h, Real.arctan_neg, abs_of_nonpos (by have := Real.arctan_nonneg.2 (neg_nonneg.2 h); rw [Real.arctan_neg] at this; linarith)]

theorem half_emin_min (f : Fmt) : pow2 f.emin / 2 = uro f * minNormal f := by
  rcases f with ⟨⟨⟩, ⟨⟩⟩ <;> decide +kernel

theorem atan_inf {b : Bool} (hf : f.exact = false) : atan (inf b : FV f) = if b then -L HALF_PI else L HALF_PI := by
  obtain ⟨-, -, a1, a2, a3, a4, a5, a6⟩ := C44_special (f := f)
  obtain ⟨ty, ex⟩ := f
  cases (show ex = false from hf)
  cases ty <;> cases b
  · exact a1
  · exact a4
  · exact a2
  · exact a5
  · exact a3
  · exact a6

/-- atan of a rounded real number -/
theorem atan_mk {q : ℚ} {zs : Bool} (hf : f.exact = false) :
    ∃ r w, atan (mk f q zs) = fin r w ∧ |r| ≤ 2 ∧
      |(r:ℝ) - Real.arctan q| ≤ (121 / 10 * uro f + 164 / 10 ^ 19) * |Real.arctan q| + minNormal f := by
  have hmp := FV.minNormal_pos f
  have hmr : (0:ℝ) < minNormal f := by exact_mod_cast hmp
  have hur : (0:ℝ) < uro f := by exact_mod_cast uro_pos f
  have hur7 : (uro f:ℝ) ≤ 1 / 10 ^ 7 := by have := (Rat.cast_le (K := ℝ)).2 (uro_le7 f); push_cast at this; exact this
  suffices H : ∃ r w, atan (mk f q zs) = fin r w ∧
      |(r:ℝ) - Real.arctan q| ≤ (121 / 10 * uro f + 164 / 10 ^ 19) * |Real.arctan q| + minNormal f by
    obtain ⟨r, w, e, h⟩ := H
    refine ⟨r, w, e, ?_, h⟩
    have ha : |Real.arctan q| ≤ 158 / 100 := by
      rw [abs_le]
      have := Real.arctan_lt_pi_div_two q
      have := Real.neg_pi_div_two_lt_arctan q
      have := Real.pi_lt_d2
      constructor <;> norm_num at * <;> linarith
    have hm : (minNormal f:ℝ) ≤ 1 / 2 ^ 125 := by have := (Rat.cast_le (K := ℝ)).2 (minNormal_le' f); push_cast at this; exact this
    have h2 : (121 / 10 * uro f + 164 / 10 ^ 19) * |Real.arctan q| ≤ (121 / 10 * uro f + 164 / 10 ^ 19) * (158 / 100) :=
      mul_le_mul_of_nonneg_left ha (by positivity)
    have h3 : |(r:ℝ)| ≤ |(r:ℝ) - Real.arctan q| + |Real.arctan q| := by
      have := abs_add_le ((r:ℝ) - Real.arctan q) (Real.arctan q); rwa [sub_add_cancel] at this
    have : |(r:ℝ)| ≤ 2 := by norm_num at hm h2 hur7 h ⊢; linarith
    exact_mod_cast this
  by_cases ho : overflows f (rnd f q) = true
  · have hbig : 3 / 4 * pow2 f.emax < |q| := by
      by_contra h
      rw [nov_big (not_lt.1 h)] at ho; exact absurd ho (by simp)
    have hpu : 4 / 3 / pow2 f.emax ≤ uro f / 1000 := by rcases f with ⟨⟨⟩, ⟨⟩⟩ <;> decide +kernel
    have hp := pow2_pos f.emax
    have hq0 : 0 < |q| := by linarith [mul_pos (show (0:ℚ) < 3 / 4 by norm_num) hp]
    have hinv : 1 / |q| ≤ uro f / 1000 := by
      refine le_trans ?_ hpu
      rw [div_div, div_le_div_iff₀ hq0 (by positivity)]; linarith
    have hinvr : 1 / |(q:ℝ)| ≤ uro f / 1000 := by have := (Rat.cast_le (K := ℝ)).2 hinv; push_cast at this; exact this
    have hq0r : (0:ℝ) < |(q:ℝ)| := by exact_mod_cast hq0
    -- the angle is within u/1000 of π/2
    have key : Real.arctan |(q:ℝ)| ≤ Real.pi / 2 ∧ Real.pi / 2 - uro f / 1000 ≤ Real.arctan |(q:ℝ)| := by
      refine ⟨(Real.arctan_lt_pi_div_two _).le, ?_⟩
      have h1 := Real.arctan_inv_of_pos hq0r
      have h2 : Real.arctan (|(q:ℝ)|)⁻¹ ≤ (|(q:ℝ)|)⁻¹ := (le_abs_self _).trans ((abs_arctan_le _).trans (le_of_eq (abs_of_pos (by positivity))))
      rw [one_div] at hinvr; linarith
    obtain ⟨h, ⟨zh, eh⟩, -, -, -, he⟩ := half_pi_val (f := f)
    have emk : mk f q zs = inf (decide (q < 0)) := by unfold mk; simp only [ho, if_true]
    rw [emk, atan_inf hf, eh]
    have hp3 := Real.pi_gt_d2
    have he' := abs_le.1 he
    rcases lt_or_ge q 0 with hq | hq
    · have hqr : (q:ℝ) < 0 := by exact_mod_cast hq
      rw [abs_of_neg hqr, Real.arctan_neg] at key
      refine ⟨-h, _, by rw [if_pos (by simpa using hq), neg_fin], ?_⟩
      have hn : Real.arctan q < 0 := by norm_num at hp3 hur7; linarith [key.2]
      rw [abs_of_neg hn]
      have h1 : uro f * 1 ≤ uro f * -Real.arctan q := mul_le_mul_of_nonneg_left (by norm_num at hp3 hur7; linarith [key.2]) hur.le
      have h2 : 0 ≤ 164 / 10 ^ 19 * -Real.arctan q := mul_nonneg (by norm_num) (by linarith)
      push_cast
      rw [abs_le]
      constructor <;> linarith [key.1, key.2]
    · have hqr : (0:ℝ) ≤ q := by exact_mod_cast hq
      rw [abs_of_nonneg hqr] at key
      refine ⟨h, zh, by rw [if_neg (by simpa using hq)], ?_⟩
      have hn : 0 < Real.arctan q := by norm_num at hp3 hur7; linarith [key.2]
      rw [abs_of_pos hn]
      have h1 : uro f * 1 ≤ uro f * Real.arctan q := mul_le_mul_of_nonneg_left (by norm_num at hp3 hur7; linarith [key.2]) hur.le
      have h2 : 0 ≤ 164 / 10 ^ 19 * Real.arctan q := mul_nonneg (by norm_num) (by linarith)
      rw [abs_le]
      constructor <;> linarith [key.1, key.2]
  · simp only [Bool.not_eq_true] at ho
    have emk := mk_fin (zs := zs) ho
    have vT : Valid (mk f q zs) := valid_mk _ _
    rw [emk] at vT ⊢
    rcases lt_or_ge |rnd f q| (minNormal f) with ht | ht
    · rw [atan_tiny ht]
      refine ⟨0, false, rfl, ?_⟩
      have h1 : |q| ≤ minNormal f := by
        by_contra h
        have : minNormal f ≤ |rnd f q| := by
          rw [abs_rnd]; exact le_rnd_of_rep (rep_minNormal f) (not_le.1 h).le
        linarith
      have h1r : |(q:ℝ)| ≤ minNormal f := by have := (Rat.cast_le (K := ℝ)).2 h1; push_cast at this; exact this
      have h2 : |Real.arctan q| ≤ |(q:ℝ)| := abs_arctan_le _
      push_cast
      rw [zero_sub, abs_neg]
      have h3 : 0 ≤ (121 / 10 * (uro f:ℝ) + 164 / 10 ^ 19) * |Real.arctan q| := by positivity
      linarith
    · obtain ⟨r, w, er, hr⟩ := C45_accuracy hf _ _ vT ht
      rw [← uro_eq] at hr
      refine ⟨r, w, er, ?_⟩
      have hT : |Real.arctan (rnd f q : ℚ)| ≤ |Real.arctan (rnd f q : ℚ) - Real.arctan q| + |Real.arctan q| := by
        have := abs_add_le (Real.arctan (rnd f q : ℚ) - Real.arctan q) (Real.arctan q); rwa [sub_add_cancel] at this
      have hrq : |(r:ℝ) - Real.arctan q| ≤ |(r:ℝ) - Real.arctan (rnd f q : ℚ)| + |Real.arctan (rnd f q : ℚ) - Real.arctan q| :=
        abs_sub_le _ _ _
      have hA : 0 ≤ 11 * (uro f:ℝ) + 163 / 10 ^ 19 := by positivity
      have hA1 : 11 * (uro f:ℝ) + 163 / 10 ^ 19 ≤ 1 / 10 ^ 5 := by norm_num at hur7 ⊢; linarith
      have hd : |Real.arctan (rnd f q : ℚ) - Real.arctan q| ≤ 101 / 100 * uro f * |Real.arctan q| + minNormal f / 10 := by
        rw [arctan_sub_rnd, abs_arctan]
        rcases lt_or_ge |q| (minNormal f) with hq | hq
        · have hq0 : 0 < |q| := by
            rcases (abs_nonneg q).lt_or_eq with h | h
            · exact h
            · rw [abs_rnd, ← h, rnd_zero] at ht; linarith
          have hq0r : (0:ℝ) < |(q:ℝ)| := by exact_mod_cast hq0
          have hT0 : 0 < rnd f |q| := by rw [abs_rnd] at ht; linarith
          have hT0r : (0:ℝ) < (rnd f |q| : ℚ) := by exact_mod_cast hT0
          have h1 := rnd_err_all (f := f) |q|
          rw [abs_abs, half_emin_min] at h1
          have h2 : |rnd f |q| - (|q|)| ≤ minNormal f / 10 := by
            have : uro f * |q| ≤ uro f * minNormal f := mul_le_mul_of_nonneg_left hq.le (uro_pos f).le
            have : uro f * minNormal f ≤ 1 / 10 ^ 7 * minNormal f := mul_le_mul_of_nonneg_right (uro_le7 f) hmp.le
            norm_num at this; linarith
          have h2r := (Rat.cast_le (K := ℝ)).2 h2
          push_cast at h2r
          have h3 : |Real.arctan (rnd f |q| : ℚ) - Real.arctan (|(q:ℝ)|)| ≤ |((rnd f |q| : ℚ):ℝ) - (|(q:ℝ)|)| := by
            refine (arctan_sub_le hT0r hq0r).trans (div_le_self (abs_nonneg _) ?_)
            nlinarith [mul_pos hT0r hq0r]
          have : 0 ≤ 101 / 100 * (uro f:ℝ) * Real.arctan |(q:ℝ)| :=
            mul_nonneg (by positivity) (Real.arctan_nonneg.2 (abs_nonneg _))
          linarith
        · have hq0r : (0:ℝ) < |(q:ℝ)| := by exact_mod_cast lt_of_lt_of_le hmp hq
          obtain ⟨τ, hτ, eτ⟩ := exists_rel_rnd (f := f) (q := |q|) (by rw [abs_abs]; exact hq)
          rw [eτ]
          push_cast
          refine (arctan_scale hq0r hτ (by norm_num at hur7; linarith)).trans ?_
          have h1 : (uro f:ℝ) / (1 - uro f) ≤ 101 / 100 * uro f := by
            rw [div_le_iff₀ (by norm_num at hur7; linarith)]
            have : (uro f:ℝ) * uro f ≤ uro f * (1 / 10 ^ 7) := mul_le_mul_of_nonneg_left hur7 hur.le
            norm_num at this; linarith
          have h2 := mul_le_mul_of_nonneg_right h1 (Real.arctan_nonneg.2 (abs_nonneg (q:ℝ)))
          linarith
      have h5 := mul_le_mul_of_nonneg_left hT hA
      have h6 : (11 * (uro f:ℝ) + 163 / 10 ^ 19) * |Real.arctan (rnd f q : ℚ) - Real.arctan q|
          ≤ 1 / 10 ^ 5 * |Real.arctan (rnd f q : ℚ) - Real.arctan q| := mul_le_mul_of_nonneg_right hA1 (abs_nonneg _)
      have h7 : 0 ≤ |Real.arctan q| := abs_nonneg _
      have h8 : 0 ≤ (uro f:ℝ) * |Real.arctan q| := by positivity
      norm_num at h6
      linarith

end Gcem

namespace Gcem.Props

open FV

/-- C66: accuracy of `asin` for every argument with smallest normal ≤ |x| < 1. -/
theorem C66_asin {f : Fmt} (hf : f.exact = false) (x : ℚ) (z : Bool) (hx : Valid (fin x z : FV f)) (h0 : minNormal f ≤ |x|) (h1 : |x| < 1) :
    ∃ r w, asin (fin x z : FV f) = .ok (fin r w) ∧
      |(r:ℝ) - Real.arcsin x| ≤ (16 / 2 ^ f.prec + 164 / 10 ^ 19) * |Real.arcsin x|
        + 1 / 2 ^ f.prec * (|(x:ℝ)| ^ 3 / √(1 - (x:ℝ) ^ 2)) := by
  have hu : (1:ℝ) / 2 ^ f.prec = uro f := (uro_eq f).symm
  have hu16 : (16:ℝ) / 2 ^ f.prec = 16 * uro f := by rw [← hu]; ring
  have hur : (0:ℝ) < uro f := by exact_mod_cast uro_pos f
  rw [hu, hu16]
  have hmp := FV.minNormal_pos f
  rcases lt_trichotomy x 0 with h | h | h
  · rw [abs_of_neg h] at h0 h1
    have hv : Valid (fin (-x) z : FV f) := by
      have := hx.neg; rwa [neg_fin, if_neg h.ne] at this
    obtain ⟨r, w, s, v, e, -, hr, -⟩ := asin_acos_core hf hv h0 h1
    have e2 : asin (fin x z : FV f) = (asin (fin (-x) z : FV f)).map Neg.neg := by
      have := (C47_asin_odd (fin (-x) z : FV f)).1 (by intro z' h'; injection h'; linarith)
      rwa [neg_fin, neg_neg, if_neg (by linarith)] at this
    rw [e2, asin_nonneg_eq (by linarith), e]
    refine ⟨-r, if r = 0 then !w else w, by rw [← neg_fin]; rfl, ?_⟩
    push_cast at hr ⊢
    rw [Real.arcsin_neg] at hr
    have hxr : (x:ℝ) < 0 := by exact_mod_cast h
    have ha : Real.arcsin x ≤ 0 := Real.arcsin_nonpos.2 hxr.le
    rw [abs_of_nonpos ha, abs_of_neg hxr]
    rw [neg_sq] at hr
    have e3 : -(r:ℝ) - Real.arcsin x = -((r:ℝ) - -Real.arcsin x) := by ring
    rw [e3, abs_neg]
    refine hr.trans ?_
    have : 0 ≤ uro f * (-(x:ℝ)) ^ 3 / √(1 - (x:ℝ) ^ 2) := by
      have : 0 < -(x:ℝ) := by linarith
      positivity
    rw [mul_div_assoc] at this ⊢
    linarith
  · rw [h, abs_zero] at h0; linarith
  · rw [abs_of_pos h] at h0 h1
    obtain ⟨r, w, s, v, e, -, hr, -⟩ := asin_acos_core hf hx h0 h1
    refine ⟨r, w, by rw [asin_nonneg_eq h.le, e], hr.trans ?_⟩
    have hxr : (0:ℝ) < x := by exact_mod_cast h
    rw [abs_of_nonneg (Real.arcsin_nonneg.2 hxr.le), abs_of_pos hxr]
    have : 0 ≤ uro f * (x:ℝ) ^ 3 / √(1 - (x:ℝ) ^ 2) := by positivity
    rw [mul_div_assoc] at this ⊢
    linarith

/-- C66: on |x| ≤ 1/2 the error of `asin` is relative. -/
theorem C66_asin_half {f : Fmt} (hf : f.exact = false) (x : ℚ) (z : Bool) (hx : Valid (fin x z : FV f)) (h0 : minNormal f ≤ |x|)
    (h1 : |x| ≤ 1 / 2) :
    ∃ r w, asin (fin x z : FV f) = .ok (fin r w) ∧
      |(r:ℝ) - Real.arcsin x| ≤ (17 / 2 ^ f.prec + 164 / 10 ^ 19) * |Real.arcsin x| := by
  obtain ⟨r, w, e, hr⟩ := C66_asin hf x z hx h0 (by linarith)
  refine ⟨r, w, e, hr.trans ?_⟩
  have h1r : |(x:ℝ)| ≤ 1 / 2 := by have := (Rat.cast_le (K := ℝ)).2 h1; push_cast at this; exact this
  have hc : (1:ℝ) / 2 ≤ √(1 - (x:ℝ) ^ 2) := by
    refine Real.le_sqrt_of_sq_le ?_
    have := sq_abs (x:ℝ)
    nlinarith [abs_nonneg (x:ℝ)]
  have hs : |(x:ℝ)| ≤ |Real.arcsin x| := by
    have := Real.abs_sin_le_abs (x := Real.arcsin x)
    rwa [Real.sin_arcsin (by linarith [(abs_le.1 h1r).1]) (by linarith [(abs_le.1 h1r).2])] at this
  have h3 : |(x:ℝ)| ^ 3 / √(1 - (x:ℝ) ^ 2) ≤ |Real.arcsin x| := by
    rw [div_le_iff₀ (by linarith)]
    have e1 : |(x:ℝ)| ^ 3 ≤ |(x:ℝ)| * (1 / 2) := by
      rw [pow_succ' |(x:ℝ)| 2]
      refine mul_le_mul_of_nonneg_left ?_ (abs_nonneg _)
      nlinarith [abs_nonneg (x:ℝ)]
    exact e1.trans (mul_le_mul hs hc (by norm_num) (abs_nonneg _))
  have hp : (0:ℝ) ≤ 1 / 2 ^ f.prec := by positivity
  have h4 := mul_le_mul_of_nonneg_left h3 hp
  have e5 : (17:ℝ) / 2 ^ f.prec = 16 / 2 ^ f.prec + 1 / 2 ^ f.prec := by ring
  rw [e5]
  linarith

/-- C66: accuracy of `acos` for every argument with smallest normal ≤ |x| < 1. -/
theorem C66_acos {f : Fmt} (hf : f.exact = false) (x : ℚ) (z : Bool) (hx : Valid (fin x z : FV f)) (h0 : minNormal f ≤ |x|) (h1 : |x| < 1) :
    ∃ r w, acos (fin x z : FV f) = .ok (fin r w) ∧
      |(r:ℝ) - Real.arccos x| ≤ (22 / 2 ^ f.prec + 165 / 10 ^ 19) * Real.arccos x
        + 1 / 2 ^ f.prec * (|(x:ℝ)| ^ 3 / √(1 - (x:ℝ) ^ 2)) := by
  have hu : (1:ℝ) / 2 ^ f.prec = uro f := (uro_eq f).symm
  have hu22 : (22:ℝ) / 2 ^ f.prec = 22 * uro f := by rw [← hu]; ring
  have hur : (0:ℝ) < uro f := by exact_mod_cast uro_pos f
  have hur7 : (uro f:ℝ) ≤ 1 / 10 ^ 7 := by have := (Rat.cast_le (K := ℝ)).2 (uro_le7 f); push_cast at this; exact this
  rw [hu, hu22]
  have hmp := FV.minNormal_pos f
  have h1r : |(x:ℝ)| < 1 := by have := (Rat.cast_lt (K := ℝ)).2 h1; push_cast at this; exact this
  rcases lt_trichotomy x 0 with h | h | h
  · rw [abs_of_neg h] at h0 h1
    have hxr : (x:ℝ) < 0 := by exact_mod_cast h
    have hv : Valid (fin (-x) z : FV f) := by
      have := hx.neg; rwa [neg_fin, if_neg h.ne] at this
    obtain ⟨r, w, s, v, -, e, -, hs⟩ := asin_acos_core hf hv h0 h1
    have e2 : acos (fin x z : FV f) = (acos (fin (-x) z : FV f)).map fun r => L PI - r := by
      have := C47_acos_reflect (fin (-x) z : FV f) (by rw [fin_lt]; linarith)
      rwa [neg_fin, neg_neg, if_neg (by linarith)] at this
    rw [e2, acos_pos_eq (by linarith), e]
    push_cast at hs
    rw [neg_sq] at hs
    rw [abs_of_neg hxr] at h1r ⊢
    have e5 : Real.arccos x = Real.pi - Real.arccos (-x) := by rw [Real.arccos_neg]; ring
    have hψ0 := Real.arccos_nonneg (-(x:ℝ))
    have hψ1 : Real.arccos (-(x:ℝ)) ≤ Real.pi / 2 := Real.arccos_le_pi_div_two.2 (by linarith)
    have hp2 := Real.pi_gt_d2
    have hp3 := Real.pi_lt_d2
    rw [e5]
    -- the leg term is below 1
    have hXd : uro f * (-(x:ℝ)) ^ 3 / √(1 - (x:ℝ) ^ 2) = uro f * ((-(x:ℝ)) ^ 3 / √(1 - (x:ℝ) ^ 2)) := by ring
    have hc2 : (uro f:ℝ) ^ 2 ≤ 1 - (x:ℝ) ^ 2 := by
      have h6 : uro f ≤ 1 - -x := by
        rcases le_or_gt (1 / 2) (-x) with h7 | h7
        · exact uro_lt_of_lt_one hf hv.rep h1 h7
        · have := uro_le7 f; norm_num at this; linarith
      have h6r : (uro f:ℝ) ≤ 1 - -x := by have := (Rat.cast_le (K := ℝ)).2 h6; push_cast at this; exact this
      norm_num at hur7
      nlinarith
    have hc : (uro f:ℝ) ≤ √(1 - (x:ℝ) ^ 2) := Real.le_sqrt_of_sq_le hc2
    have hX0 : 0 ≤ uro f * ((-(x:ℝ)) ^ 3 / √(1 - (x:ℝ) ^ 2)) := by
      have : 0 < -(x:ℝ) := by linarith
      positivity
    have hX1 : uro f * ((-(x:ℝ)) ^ 3 / √(1 - (x:ℝ) ^ 2)) ≤ 1 := by
      rw [← mul_div_assoc, div_le_one (by linarith)]
      have : (-(x:ℝ)) ^ 3 ≤ 1 := pow_le_one₀ (by linarith) h1r.le
      nlinarith
    rw [hXd] at hs
    generalize uro f * ((-(x:ℝ)) ^ 3 / √(1 - (x:ℝ) ^ 2)) = X at hs hX0 hX1 ⊢
    generalize Real.arccos (-(x:ℝ)) = ψ at hs hψ0 hψ1 ⊢
    have hsb : |s| ≤ 4 := by
      have h3 : |(s:ℝ)| ≤ |(s:ℝ) - ψ| + |ψ| := by
        have := abs_add_le ((s:ℝ) - ψ) ψ; rwa [sub_add_cancel] at this
      rw [abs_of_nonneg hψ0] at h3
      have h4 : (16 * (uro f:ℝ) + 164 / 10 ^ 19) * ψ ≤ 1 / 100 * ψ := mul_le_mul_of_nonneg_right (by norm_num at hur7 ⊢; linarith) hψ0
      have : |(s:ℝ)| ≤ 4 := by norm_num at hp3 h4 hs; linarith
      exact_mod_cast this
    obtain ⟨r', ⟨z', e6⟩, -, -, h6⟩ := pi_sub_acc (ψ := ψ) (is_fin (f := f) s v) hsb
    refine ⟨r', z', by rw [← e6]; rfl, h6.trans ?_⟩
    rw [abs_of_nonneg (show 0 ≤ Real.pi - ψ by linarith)]
    have h7 : ψ ≤ Real.pi - ψ := by linarith
    have h8 : (157 / 100 : ℝ) ≤ Real.pi - ψ := by norm_num at hp2; linarith
    generalize Real.pi - ψ = Θ at h7 h8 ⊢
    have k1 : (1 + (uro f:ℝ)) * (|(s:ℝ) - ψ| + 64 / 10 * uro f)
        ≤ (1 + 1 / 10 ^ 7) * ((16 * uro f + 164 / 10 ^ 19) * Θ + 92 / 100 * X + 64 / 10 * uro f) := by
      refine mul_le_mul (by linarith) ?_ (by positivity) (by norm_num)
      have := mul_le_mul_of_nonneg_left h7 (show 0 ≤ 16 * (uro f:ℝ) + 164 / 10 ^ 19 by positivity)
      linarith
    have k2 : uro f * (157 / 100) ≤ uro f * Θ := mul_le_mul_of_nonneg_left h8 hur.le
    have k3 : 0 ≤ uro f * Θ := by positivity
    norm_num at k1
    linarith
  · rw [h, abs_zero] at h0; linarith
  · rw [abs_of_pos h] at h0 h1
    obtain ⟨r, w, s, v, -, e, -, hs⟩ := asin_acos_core hf hx h0 h1
    refine ⟨s, v, by rw [acos_pos_eq h, e], hs.trans ?_⟩
    have hxr : (0:ℝ) < x := by exact_mod_cast h
    rw [abs_of_pos hxr]
    have h3 : 0 ≤ uro f * (x:ℝ) ^ 3 / √(1 - (x:ℝ) ^ 2) := by positivity
    rw [mul_div_assoc] at h3 ⊢
    have h4 : 0 ≤ (6 * (uro f:ℝ) + 1 / 10 ^ 19) * Real.arccos x := mul_nonneg (by positivity) (Real.arccos_nonneg _)
    linarith

/-- C66: the term in 1/√(1-x²) is needed: near 1 `acos` loses half of the digits. In `float`, for
x = 1 - 2880/2^24 the result is more than 3·10⁻⁵ (over 500 rounding units) too large, relatively. -/
theorem C66_acos_cancellation : ∃ r w, acos (fin (1 - 2880 / 2 ^ 24) false : FV binary32) = .ok (fin r w) ∧
    (1 + 3 / 10 ^ 5) * Real.arccos ((1 - 2880 / 2 ^ 24 : ℚ) : ℝ) < r := by
  refine ⟨2487059 / 134217728, false, by decide +kernel, ?_⟩
  have h : Real.arccos ((1 - 2880 / 2 ^ 24 : ℚ) : ℝ) < 185294 / 10 ^ 7 := by
    have hc : Real.cos (185294 / 10 ^ 7) < ((1 - 2880 / 2 ^ 24 : ℚ) : ℝ) := by
      have := (abs_le.1 (Real.cos_bound (x := 185294 / 10 ^ 7) (by rw [abs_of_pos (by norm_num)]; norm_num))).2
      rw [abs_of_pos (by norm_num)] at this
      push_cast
      norm_num at this ⊢
      linarith
    have hp := Real.pi_gt_d2
    rw [← Real.arccos_cos (x := 185294 / 10 ^ 7) (by norm_num) (by norm_num at hp ⊢; linarith)]
    exact Real.arccos_lt_arccos (Real.neg_one_le_cos _) hc (by norm_num)
  push_cast at h ⊢
  norm_num at h ⊢
  linarith

theorem arg_right {x y : ℝ} (hx : 0 < x) : Complex.arg ⟨x, y⟩ = Real.arctan (y / x) := by
  rw [Complex.arg_of_re_nonneg (by exact hx.le), Real.arctan_eq_arcsin]
  have e : ‖(⟨x, y⟩ : ℂ)‖ = x * √(1 + (y / x) ^ 2) := by
    rw [Complex.norm_def, Complex.normSq_mk]
    nth_rw 3 [← Real.sqrt_sq hx.le]
    rw [← Real.sqrt_mul (by positivity)]
    congr 1; field_simp
  rw [e, div_div]

theorem arg_left {x y : ℝ} (hx : x < 0) :
    Complex.arg ⟨x, y⟩ = Real.arctan (y / x) + if 0 ≤ y then Real.pi else -Real.pi := by
  have e : ‖(⟨x, y⟩ : ℂ)‖ = -x * √(1 + (y / x) ^ 2) := by
    rw [Complex.norm_def, Complex.normSq_mk]
    rw [← Real.sqrt_sq (show 0 ≤ -x by linarith)]
    rw [← Real.sqrt_mul (by positivity)]
    congr 1
    have : x ≠ 0 := hx.ne
    field_simp
  have e2 : -y / (-x * √(1 + (y / x) ^ 2)) = y / x / √(1 + (y / x) ^ 2) := by
    rw [neg_mul, neg_div_neg_eq, div_div]
  split_ifs with h
  · rw [Complex.arg_of_re_neg_of_im_nonneg hx h, Complex.neg_im, e, Real.arctan_eq_arcsin, e2]
  · rw [Complex.arg_of_re_neg_of_im_neg hx (by exact not_le.1 h), Complex.neg_im, e, Real.arctan_eq_arcsin, e2]; ring

/-- C67: `atan2(y, x)` for every finite `y` and every normal `x` approximates the argument of the complex number `x + iy`. -/
theorem C67_accuracy {f : Fmt} (hf : f.exact = false) (y x : ℚ) (zy zx : Bool) (hn : minNormal f ≤ |x|) :
    ∃ r w, atan2 (fin y zy : FV f) (fin x zx) = fin r w ∧
      |(r:ℝ) - Complex.arg ⟨x, y⟩| ≤ (18 / 2 ^ f.prec + 165 / 10 ^ 19) * |Complex.arg ⟨x, y⟩| + minNormal f := by
  have hu18 : (18:ℝ) / 2 ^ f.prec = 18 * uro f := by rw [uro_eq]; ring
  rw [hu18]
  have hur : (0:ℝ) < uro f := by exact_mod_cast uro_pos f
  have hur7 : (uro f:ℝ) ≤ 1 / 10 ^ 7 := by have := (Rat.cast_le (K := ℝ)).2 (uro_le7 f); push_cast at this; exact this
  have hmp := FV.minNormal_pos f
  have hmr : (0:ℝ) < minNormal f := by exact_mod_cast hmp
  have hxt : ¬ (limMin : FV f) > fabs (fin x zx) := by rw [limMin_gt_fabs]; exact not_lt.2 hn
  obtain ⟨t1, t2, t3⟩ := C46_table (fin y zy : FV f) (fin x zx) (by simp) (by simp) hxt
  obtain ⟨s, w, es, hsb, hs⟩ := atan_mk (f := f) (q := y / x) (zs := sign (fin y zy : FV f) ^^ sign (fin x zx : FV f)) hf
  push_cast at hs
  have hp2 := Real.pi_gt_d2
  have ha1 := Real.arctan_lt_pi_div_two ((y:ℝ) / x)
  have ha2 := Real.neg_pi_div_two_lt_arctan ((y:ℝ) / x)
  have hmu : (minNormal f:ℝ) ≤ uro f := by
    have := (Rat.cast_le (K := ℝ)).2 (minNormal_lt_uro f).le; exact this
  rcases lt_trichotomy x 0 with h | h | h
  · have hxr : (x:ℝ) < 0 := by exact_mod_cast h
    rw [arg_left hxr]
    have ediv : (fin y zy / fin x zx : FV f) = mk f (y / x) (sign (fin y zy : FV f) ^^ sign (fin x zx : FV f)) := fin_div h.ne _ _ _
    -- the common estimate
    have fin_est : ∀ {Θ r e : ℝ}, e = |(s:ℝ) - Real.arctan (y / x)| → |Real.arctan ((y:ℝ) / x)| ≤ Θ → 157 / 100 ≤ Θ →
        |r| ≤ (1 + uro f) * (e + 64 / 10 * uro f) + uro f * Θ + uro f / 1000 →
        |r| ≤ (18 * uro f + 165 / 10 ^ 19) * Θ + minNormal f := by
      intro Θ r e h0 h5 h2 h4
      refine h4.trans ?_
      have k1 : (1 + (uro f:ℝ)) * (e + 64 / 10 * uro f)
          ≤ (1 + 1 / 10 ^ 7) * ((121 / 10 * uro f + 164 / 10 ^ 19) * Θ + minNormal f + 64 / 10 * uro f) := by
        refine mul_le_mul (by linarith) ?_ (by rw [h0]; positivity) (by norm_num)
        have := mul_le_mul_of_nonneg_left h5 (show 0 ≤ 121 / 10 * (uro f:ℝ) + 164 / 10 ^ 19 by positivity)
        linarith
      have k2 : uro f * (157 / 100) ≤ uro f * Θ := mul_le_mul_of_nonneg_left h2 hur.le
      have k3 : 0 ≤ uro f * Θ := mul_nonneg hur.le (by linarith)
      norm_num at k1
      linarith
    by_cases hy : y < 0
    · have hyr : (y:ℝ) < 0 := by exact_mod_cast hy
      rw [if_neg (by linarith), t2 (by rw [fin_lt]; exact h) (by rw [fin_lt]; exact hy), ediv, es]
      obtain ⟨r, -, ⟨z', ez'⟩, -, hr⟩ := pi_sub_acc (ψ := Real.arctan (y / x)) (is_fin (f := f) s w) (by linarith)
      have h0 : 0 < Real.arctan ((y:ℝ) / x) := Real.arctan_pos.2 (div_pos_of_neg_of_neg hyr hxr)
      have hp : 0 < Real.pi - Real.arctan ((y:ℝ) / x) := by linarith
      rw [abs_of_pos hp] at hr
      refine ⟨-r, z', ez', ?_⟩
      have e9 : Real.arctan ((y:ℝ) / x) + -Real.pi = -(Real.pi - Real.arctan (y / x)) := by ring
      rw [e9, abs_neg, abs_of_pos hp]
      push_cast
      have e10 : -(r:ℝ) - -(Real.pi - Real.arctan (y / x)) = -((r:ℝ) - (Real.pi - Real.arctan (y / x))) := by ring
      rw [e10, abs_neg]
      exact fin_est rfl (by rw [abs_of_pos h0]; linarith) (by norm_num at hp2 ⊢; linarith) hr
    · have hyr : (0:ℝ) ≤ y := by exact_mod_cast not_lt.1 hy
      rw [if_pos hyr, t3 (by rw [fin_lt]; exact h) (by rw [fin_lt]; exact hy), ediv, es]
      obtain ⟨r, -, -, hadd, hr⟩ := pi_sub_acc (ψ := -Real.arctan (y / x)) (is_fin (f := f) (-s) w) (by rw [abs_neg]; linarith)
      obtain ⟨z', ez'⟩ := hadd (fin s w) (by rw [neg_neg]; exact is_fin s w)
      have h0 : Real.arctan ((y:ℝ) / x) ≤ 0 := by
        have := Real.arctan_nonneg.2 (div_nonneg hyr (show 0 ≤ -(x:ℝ) by linarith))
        rw [div_neg, Real.arctan_neg] at this; linarith
      have hp : 0 < Real.pi - -Real.arctan ((y:ℝ) / x) := by linarith
      have e9 : Real.arctan ((y:ℝ) / x) + Real.pi = Real.pi - -Real.arctan (y / x) := by ring
      rw [abs_of_pos hp] at hr
      refine ⟨r, z', ez', ?_⟩
      rw [e9, abs_of_pos hp]
      refine fin_est ?_ (by rw [abs_of_nonpos h0]; linarith) (by norm_num at hp2 ⊢; linarith) hr
      push_cast
      rw [← abs_neg]; ring_nf
  · rw [h, abs_zero] at hn; linarith
  · have hxr : (0:ℝ) < x := by exact_mod_cast h
    rw [t1 (by rw [fin_lt]; exact h), arg_right hxr]
    refine ⟨s, w, by rw [← es]; congr 1; exact fin_div h.ne' _ _ _, hs.trans ?_⟩
    have := mul_le_mul_of_nonneg_right (show 121 / 10 * (uro f:ℝ) + 164 / 10 ^ 19 ≤ 18 * uro f + 165 / 10 ^ 19 by linarith)
      (abs_nonneg (Real.arctan ((y:ℝ) / x)))
    linarith

/-- C67: on the imaginary axis, `x = ±0` and `y` normal: the stored `±π/2`. -/
theorem C67_axis {f : Fmt} (y : ℚ) (zy zx : Bool) (hn : minNormal f ≤ |y|) :
    ∃ r w, atan2 (fin y zy : FV f) (fin 0 zx) = fin r w ∧
      |(r:ℝ) - Complex.arg ⟨0, y⟩| ≤ 32 / 10 * (1 / 2 ^ f.prec) := by
  rw [← uro_eq]
  have hmp := FV.minNormal_pos f
  have hxt : (limMin : FV f) > fabs (fin 0 zx) := not_tiny_zero
  have hyt : ¬ (limMin : FV f) > fabs (fin y zy) := by rw [limMin_gt_fabs]; exact not_lt.2 hn
  have e : atan2 (fin y zy : FV f) (fin 0 zx) = if (fin y zy : FV f) > i 0 then L HALF_PI else -L HALF_PI := by
    rw [atan2_def]; unfold atan2_compute
    rw [if_neg (by rw [any_nan_iff]; simp), if_pos hxt, if_neg hyt]
  obtain ⟨h, ⟨zh, eh⟩, -, -, -, he⟩ := half_pi_val (f := f)
  rw [e, i_zero, eh]
  rcases lt_trichotomy y 0 with h0 | h0 | h0
  · have h0r : (y:ℝ) < 0 := by exact_mod_cast h0
    rw [if_neg (by rw [gt_iff, fin_lt]; linarith), neg_fin, Complex.arg_eq_neg_pi_div_two_iff.2 ⟨rfl, h0r⟩]
    refine ⟨_, _, rfl, ?_⟩
    push_cast
    have e10 : -(h:ℝ) - -(Real.pi / 2) = -((h:ℝ) - Real.pi / 2) := by ring
    rw [e10, abs_neg]; exact he
  · rw [h0, abs_zero] at hn; linarith
  · have h0r : (0:ℝ) < y := by exact_mod_cast h0
    rw [if_pos (by rw [gt_iff, fin_lt]; exact h0), Complex.arg_eq_pi_div_two_iff.2 ⟨rfl, h0r⟩]
    exact ⟨_, _, rfl, he⟩

/-- C67: the restriction to normal `x` is needed. `atan2(2⁻¹⁰²², 2⁻¹⁰²³)` in `double` is the stored `π/2`,
while the true angle is `arctan 2`, below 1.2. -/
theorem C67_subnormal_x : ∃ r w, atan2 (fin (1 / 2 ^ 1022) false : FV binary64) (fin (1 / 2 ^ 1023) false) = fin r w ∧
    Complex.arg ⟨((1 / 2 ^ 1023 : ℚ) : ℝ), ((1 / 2 ^ 1022 : ℚ) : ℝ)⟩ < 12 / 10 ∧ 15 / 10 < r := by
  refine ⟨884279719003555 / 562949953421312, false, by decide +kernel, ?_, by norm_num⟩
  have e : (((1 / 2 ^ 1022 : ℚ) : ℝ)) / ((1 / 2 ^ 1023 : ℚ) : ℝ) = 2 := by
    rw [← Rat.cast_div]; exact_mod_cast (by decide +kernel : (1 / 2 ^ 1022 : ℚ) / (1 / 2 ^ 1023) = 2)
  have hpos : (0:ℝ) < ((1 / 2 ^ 1023 : ℚ) : ℝ) := by
    exact_mod_cast (by decide +kernel : (0:ℚ) < 1 / 2 ^ 1023)
  rw [arg_right hpos, e]
  have h1 := Real.arctan_inv_of_pos (show (0:ℝ) < 2 by norm_num)
  have h2 := div_one_add_sq_le_arctan (show (0:ℝ) < 2⁻¹ by norm_num)
  have h3 := Real.pi_lt_d2
  norm_num at h2 h3 ⊢
  norm_num at h1
  linarith

/-- the theorems at concrete arguments: `asin(1/2)` and `acos(-1/2)` in `double` -/
example : ∃ r w, asin (fin (1 / 2) false : FV binary64) = .ok (fin r w) ∧ |(r:ℝ) - Real.arcsin ((1 / 2 : ℚ):ℝ)| ≤ 1 / 10 ^ 14 := by
  obtain ⟨r, w, e, h⟩ := C66_asin_half (f := binary64) rfl (1 / 2) false (by decide +kernel) (by decide +kernel) (by norm_num)
  refine ⟨r, w, e, h.trans ?_⟩
  have h2 : |Real.arcsin ((1 / 2 : ℚ):ℝ)| ≤ 2 := by
    rw [abs_le]
    have := Real.arcsin_le_pi_div_two ((1 / 2 : ℚ):ℝ)
    have := Real.neg_pi_div_two_le_arcsin ((1 / 2 : ℚ):ℝ)
    have := Real.pi_lt_d2
    norm_num at *; constructor <;> linarith
  have hp : binary64.prec = 53 := rfl
  rw [hp]
  have := mul_le_mul_of_nonneg_left h2 (show (0:ℝ) ≤ 17 / 2 ^ 53 + 164 / 10 ^ 19 by norm_num)
  norm_num at this ⊢; linarith

example : ∃ r w, atan2 (fin 1 false : FV binary64) (fin (-1) false) = fin r w ∧ |(r:ℝ) - 3 * Real.pi / 4| ≤ 1 / 10 ^ 14 := by
  obtain ⟨r, w, e, h⟩ := C67_accuracy (f := binary64) rfl 1 (-1) false false (by decide +kernel)
  refine ⟨r, w, e, ?_⟩
  have ea : Complex.arg ⟨((-1 : ℚ):ℝ), ((1 : ℚ):ℝ)⟩ = 3 * Real.pi / 4 := by
    rw [arg_left (by norm_num), if_pos (by norm_num)]
    norm_num
    ring
  rw [ea] at h
  refine h.trans ?_
  have hp : binary64.prec = 53 := rfl
  have h3 := Real.pi_lt_d2
  have hm : ((minNormal binary64 : ℚ):ℝ) ≤ 1 / 2 ^ 125 := by
    have := (Rat.cast_le (K := ℝ)).2 (minNormal_le' binary64); push_cast at this; exact this
  rw [hp, abs_of_pos (by positivity)]
  norm_num at hm h3 ⊢; linarith

end Gcem.Props
