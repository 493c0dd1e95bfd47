import Verif.Props.IgammaTail
import Verif.Props.InvHypAcc
import Verif.Props.Incomplete
import Verif.Props.TrigAcc
import Verif.Props.AtanAcc

/-!
# C82: compositions that should cancel

`exp(log(x))`, `log(exp(x))`, `sqrt(x) * sqrt(x)`, `sin(x)^2 + cos(x)^2` and `tan(atan(x))`, with every operation rounded.
-/

namespace Gcem.Props
open Gcem FV
variable {f : Fmt}

theorem expMin_uro (f : Fmt) : (expMin f.ty : ℝ) * uro f ≤ 86 / 2 ^ 24 := by
  rw [uro_eq]
  rcases f with ⟨⟨⟩, ⟨⟩⟩ <;> norm_num [expMin, Fmt.prec, FTy.prec]

/-- C82: `exp(log(x))` returns `x` up to a relative error that grows with `|ln x|`. -/
theorem C82_exp_log (hf : f.exact = false) (x : ℚ) (z : Bool) (hx : Valid (fin x z : FV f)) (h1 : 1 / 2 ≤ x)
    (h2 : Real.log x ≤ expMin f.ty - 1) :
    ∃ r, (log (fin x z : FV f) >>= exp) = .ok (fin r false) ∧
      |(r:ℝ) - x| ≤ (149 + 10 * |Real.log x|) * (1 / 2 ^ f.prec) * x := by
  have hu := uro_pos_real f
  have hu24 := uro_le f
  have hM := expMin_uro f
  have hM2 := expMin_ge f.ty
  have h1' : (1 / 2 : ℝ) ≤ x := by
    have := (Rat.cast_le (K := ℝ)).2 h1
    push_cast at this; exact this
  have hx0 : (0:ℝ) < x := by linarith
  obtain ⟨l, w, el, bl⟩ := log_half hf x z hx h1
  have vl : Valid (fin l w : FV f) := by
    have := okv_log hf hx
    rw [el] at this; exact this
  have hlo : -1 ≤ Real.log x := by
    have h5 : Real.log (1 / 2) ≤ Real.log x := Real.log_le_log (by norm_num) h1'
    rw [one_div, Real.log_inv] at h5
    have := Real.log_two_lt_d9
    linarith
  have habs : |Real.log x| ≤ expMin f.ty - 1 := by rw [abs_le]; constructor <;> linarith
  have hprod : |Real.log x| * uro f ≤ 86 / 2 ^ 24 := by
    refine (mul_le_mul_of_nonneg_right (habs.trans (by linarith)) hu.le).trans hM
  have hm := (expMin_le f.ty).2
  obtain ⟨r, er, -, br⟩ := exp_of_lgamma hf vl (t := Real.log x) (D := (15 + 5 * |Real.log x|) * uro f)
    (by norm_num at hprod hu24 ⊢; linarith) bl (by linarith) (by linarith)
  rw [Real.exp_log hx0] at br
  refine ⟨r, ?_, ?_⟩
  · rw [el]; exact er
  · rw [← uro_eq]
    refine br.trans ?_
    refine mul_le_mul_of_nonneg_right ?_ hx0.le
    have := abs_nonneg (Real.log (x:ℝ))
    nlinarith

/-- C82 (below 1/2 there is no such bound): `exp(log(1e-14))` is more than nine times too large. -/
theorem C82_exp_log_small : ∃ x r : ℚ, (d 1e-14 : FV binary64) = fin x false ∧
    (log (fin x false : FV binary64) >>= exp) = .ok (fin r false) ∧ 9 * x < r := by
  refine ⟨6338253001141147 / 633825300114114700748351602688, 7922816251426433 / 79228162514264337593543950336, by decide +kernel,
    by decide +kernel, by norm_num⟩

/-- C82: `log(exp(x))` returns `x` with an absolute error that grows with `|x|`. -/
theorem C82_log_exp (hf : f.exact = false) (x : ℚ) (z : Bool) (hx : Valid (fin x z : FV f)) (h1 : -(1 / 2) ≤ x)
    (h2 : x ≤ expMin f.ty) :
    ∃ r w, (exp (fin x z : FV f) >>= log) = .ok (fin r w) ∧
      |(r:ℝ) - x| ≤ (149 + 10 * |(x:ℝ)|) * (1 / 2 ^ f.prec) := by
  have hu := uro_pos_real f
  have hu24 := uro_le f
  have hM := expMin_uro f
  have hM2 := expMin_ge f.ty
  have h1' : -(1 / 2 : ℝ) ≤ x := by
    have := (Rat.cast_le (K := ℝ)).2 h1
    push_cast at this; exact this
  have h2' : (x:ℝ) ≤ expMin f.ty := by
    have := (Rat.cast_le (K := ℝ)).2 h2
    push_cast at this; exact this
  have hm := (expMin_le f.ty).2
  have hmq : (expMin f.ty : ℚ) ≤ expMax f.ty := by exact_mod_cast hm
  have hm2q : (86:ℚ) ≤ expMin f.ty := by exact_mod_cast hM2
  obtain ⟨r, er, hr0, br⟩ := C33_accuracy hf x z hx (by linarith) (h2.trans hmq)
  have vr : Valid (fin r false : FV f) := by
    have := okv_exp hf hx
    rw [er] at this; exact this
  have hug : (1 / 2 ^ 62 : ℝ) ≤ 4 * uro f := by
    have := (Rat.cast_le (K := ℝ)).2 (uro_ge f)
    push_cast at this
    norm_num only at this ⊢
    linarith
  have hax := abs_nonneg (x:ℝ)
  have habs : |(x:ℝ)| ≤ expMin f.ty := by rw [abs_le]; constructor <;> linarith
  have hprod : |(x:ℝ)| * uro f ≤ 86 / 2 ^ 24 := (mul_le_mul_of_nonneg_right habs hu.le).trans hM
  have hη : 104 * (1 / 2 ^ f.prec) + (|(x:ℝ)| + 7) * (1 / 2 ^ 62) ≤ (132 + 4 * |(x:ℝ)|) * uro f := by
    rw [← uro_eq]
    have := mul_le_mul_of_nonneg_left hug (show 0 ≤ |(x:ℝ)| + 7 by linarith)
    linarith
  have hE := Real.exp_pos (x:ℝ)
  have br' : |(r:ℝ) - Real.exp x| ≤ ((132 + 4 * |(x:ℝ)|) * uro f) * Real.exp x := br.trans (mul_le_mul_of_nonneg_right hη hE.le)
  have hηs : (132 + 4 * |(x:ℝ)|) * (uro f : ℝ) ≤ 1 / 1000 := by norm_num at hprod hu24 ⊢; linarith
  have hr2 : 1 / 2 ≤ r := by
    have h3 : (1 / 2 : ℝ) ≤ r := by
      have h4 := Real.add_one_le_exp (x:ℝ)
      have h5 : 6 / 10 ≤ Real.exp (x:ℝ) := by
        have h6 : Real.exp (-(1 / 2)) ≤ Real.exp (x:ℝ) := Real.exp_le_exp.2 h1'
        have h7 : (6 / 10 : ℝ) ≤ Real.exp (-(1 / 2)) := by
          have h8 : Real.exp (-(1 / 2)) * Real.exp (1 / 2) = 1 := by rw [← Real.exp_add]; norm_num
          have h9 : Real.exp (1 / 2) ≤ 5 / 3 := by
            have h10 : Real.exp (1 / 2) ^ 2 = Real.exp 1 := by rw [← Real.exp_nat_mul]; norm_num
            have h11 := Real.exp_one_lt_d9
            have h12 := Real.exp_pos (1 / 2)
            nlinarith
          have := Real.exp_pos (-(1 / 2))
          nlinarith
        linarith
      have := abs_le.1 (br'.trans (mul_le_mul_of_nonneg_right hηs hE.le))
      linarith [this.1]
    have : ((1 / 2 : ℚ) : ℝ) ≤ r := by push_cast; exact h3
    exact_mod_cast this
  obtain ⟨s, w, es, bs⟩ := log_at hf vr hr2 hE br' hηs
  rw [Real.log_exp] at bs
  refine ⟨s, w, ?_, ?_⟩
  · rw [er]; exact es
  · rw [← uro_eq]
    refine bs.trans ?_
    have := mul_nonneg hax hu.le
    nlinarith

/-- C82: `sin(x)^2 + cos(x)^2`, computed, is one up to the argument error of `sin` and `cos`. -/
theorem C82_pythagoras (hf : f.exact = false) (hty : f.ty ≠ .ldouble) (x : ℚ) (z : Bool) (hx : Valid (fin x z : FV f))
    (hn : 2 * minNormal f ≤ |x|) (hm : |x| ≤ 2 ^ 20) :
    ∃ (s c : FV f) (t : ℚ) (w : Bool), sin (fin x z : FV f) = .ok s ∧ cos (fin x z : FV f) = .ok c ∧
      s * s + c * c = fin t w ∧ |(t:ℝ) - 1| ≤ (91 * |(x:ℝ)| + 13) * (1 / 2 ^ f.prec) := by
  obtain ⟨-, -, s, sz, c, cz, -, -, es, ec, -, -, -, bs, bc⟩ := C43_float_double hf hty x z hx hn hm
  rw [← uro_eq] at bs bc ⊢
  have hu := uro_pos_real f
  have hu24 := uro_le f
  have us : |s| ≤ 1 := by
    rcases (C42_range (fin x z : FV f) (fin s sz)).1 es with h | ⟨q, w, h, a, b⟩
    · cases h
    · obtain ⟨rfl, -⟩ := FV.fin.injEq _ _ _ _ |>.mp h
      exact abs_le.2 ⟨a, b⟩
  have uc : |c| ≤ 1 := by
    rcases (C42_range (fin x z : FV f) (fin c cz)).2 ec with h | ⟨q, w, h, a, b⟩
    · cases h
    · obtain ⟨rfl, -⟩ := FV.fin.injEq _ _ _ _ |>.mp h
      exact abs_le.2 ⟨a, b⟩
  have ss : |s * s| ≤ 1 := by rw [abs_mul]; nlinarith [abs_nonneg s]
  have cc : |c * c| ≤ 1 := by rw [abs_mul]; nlinarith [abs_nonneg c]
  have i1 := (is_fin (f := f) s sz).mul (is_fin s sz) (nov (ss.trans (by norm_num)))
  have i2 := (is_fin (f := f) c cz).mul (is_fin c cz) (nov (cc.trans (by norm_num)))
  have one : Rep f (1:ℚ) := by
    have := rep_int (f := f) (n := 1) (by have := two_pow_prec f; rw [abs_le]; constructor <;> omega)
    push_cast at this; exact this
  have r1 : |rnd f (s * s)| ≤ 1 := by
    rw [abs_le] at ss ⊢
    exact ⟨le_rnd_of_rep one.neg ss.1, rnd_le_of_rep one ss.2⟩
  have r2 : |rnd f (c * c)| ≤ 1 := by
    rw [abs_le] at cc ⊢
    exact ⟨le_rnd_of_rep one.neg cc.1, rnd_le_of_rep one cc.2⟩
  have i3 := i1.add i2 (nov ((abs_add_le _ _).trans ((add_le_add r1 r2).trans (by norm_num))))
  obtain ⟨w, e⟩ := i3
  refine ⟨_, _, _, w, es, ec, e, ?_⟩
  have e1 := rnd_all_real f (s * s)
  have e2 := rnd_all_real f (c * c)
  have e3 := rnd_all_real f (rnd f (s * s) + rnd f (c * c))
  generalize rnd f (rnd f (s * s) + rnd f (c * c)) = T at e3 ⊢
  have r1' : |((rnd f (s * s) : ℚ) : ℝ)| ≤ 1 := by exact_mod_cast r1
  have r2' : |((rnd f (c * c) : ℚ) : ℝ)| ≤ 1 := by exact_mod_cast r2
  generalize rnd f (s * s) = A at e1 e3 r1'
  generalize rnd f (c * c) = B at e2 e3 r2'
  have ss' : |((s * s : ℚ) : ℝ)| ≤ 1 := by exact_mod_cast ss
  have cc' : |((c * c : ℚ) : ℝ)| ≤ 1 := by exact_mod_cast cc
  have e1' := e1.trans (add_le_add_left (mul_le_mul_of_nonneg_left ss' hu.le) _)
  have e2' := e2.trans (add_le_add_left (mul_le_mul_of_nonneg_left cc' hu.le) _)
  push_cast at e1' e2' e3
  have h3 : |(A:ℝ) + B| ≤ 2 := (abs_add_le _ _).trans (by linarith)
  have e3' := e3.trans (add_le_add_left (mul_le_mul_of_nonneg_left h3 hu.le) _)
  have us' : |(s:ℝ)| ≤ 1 := by exact_mod_cast us
  have uc' : |(c:ℝ)| ≤ 1 := by exact_mod_cast uc
  have q1 : |(s:ℝ) * s - Real.sin x * Real.sin x| ≤ 2 * (25 * (uro f : ℝ) * |(x:ℝ)|) := by
    have : (s:ℝ) * s - Real.sin x * Real.sin x = (s - Real.sin x) * (s + Real.sin x) := by ring
    rw [this, abs_mul, mul_comm]
    refine mul_le_mul ?_ bs (abs_nonneg _) (by norm_num)
    exact (abs_add_le _ _).trans (by linarith [Real.abs_sin_le_one x])
  have q2 : |(c:ℝ) * c - Real.cos x * Real.cos x| ≤ 2 * (201 / 10 * (uro f : ℝ) * |(x:ℝ)| + 37 / 10 * uro f) := by
    have : (c:ℝ) * c - Real.cos x * Real.cos x = (c - Real.cos x) * (c + Real.cos x) := by ring
    rw [this, abs_mul, mul_comm]
    refine mul_le_mul ?_ bc (abs_nonneg _) (by norm_num)
    exact (abs_add_le _ _).trans (by linarith [Real.abs_cos_le_one x])
  have e0 : (T:ℝ) - 1 = (T - (A + B)) + (A - s * s) + (B - c * c) + (s * s - Real.sin x * Real.sin x) + (c * c - Real.cos x * Real.cos x) := by
    have := Real.sin_sq_add_cos_sq x
    nlinarith
  rw [e0]
  have t1 := abs_add_le ((T:ℝ) - (A + B) + (A - s * s) + (B - c * c) + (s * s - Real.sin x * Real.sin x)) (c * c - Real.cos x * Real.cos x)
  have t2 := abs_add_le ((T:ℝ) - (A + B) + (A - s * s) + (B - c * c)) (s * s - Real.sin x * Real.sin x)
  have t3 := abs_add_le ((T:ℝ) - (A + B) + (A - s * s)) (B - c * c)
  have t4 := abs_add_le ((T:ℝ) - (A + B)) (A - s * s)
  have h4 : 0 ≤ (uro f : ℝ) * |(x:ℝ)| := by positivity
  linarith

/-- squaring a value that is close to `√q` -/
theorem sq_back {q r : ℚ} {k : ℝ} (hk0 : 0 ≤ k) (hk : k * (k * uro f) ≤ 1 / 2) (hk1 : k * uro f ≤ 1 / 1000)
    (q1 : 1 / 2 ^ 120 ≤ q) (q2 : q ≤ 2 ^ 120) (h : |(r:ℝ) - √(q:ℝ)| ≤ k / 2 ^ f.prec * √(q:ℝ)) :
    ∃ t w, (fin r false : FV f) * fin r false = fin t w ∧ |(t:ℝ) - q| ≤ (2 * k + 2) / 2 ^ f.prec * q := by
  have hu := uro_pos_real f
  have hu24 := uro_le f
  have q0 : 0 < q := lt_of_lt_of_le (by norm_num) q1
  have q0' : (0:ℝ) < q := by exact_mod_cast q0
  have e0 : k / 2 ^ f.prec = k * (uro f : ℝ) := by rw [uro_eq]; ring
  have e0' : (2 * k + 2) / 2 ^ f.prec = (2 * k + 2) * (uro f : ℝ) := by rw [uro_eq]; ring
  rw [e0] at h
  rw [e0']
  have hs0 := Real.sqrt_pos.2 q0'
  have hss := Real.mul_self_sqrt q0'.le
  generalize √(q:ℝ) = s at *
  have hb : |(r:ℝ) + s| ≤ (2 + k * uro f) * s := by
    have : (r:ℝ) + s = (r - s) + 2 * s := by ring
    rw [this]
    refine (abs_add_le _ _).trans ?_
    rw [abs_of_pos (show 0 < 2 * s by linarith)]
    linarith
  have hrr : |(r:ℝ) * r - q| ≤ (2 * k + 1 / 2) * uro f * q := by
    have e1 : (r:ℝ) * r - q = (r - s) * (r + s) := by rw [← hss]; ring
    rw [e1, abs_mul]
    refine (mul_le_mul h hb (abs_nonneg _) (by positivity)).trans ?_
    have e2 : k * (uro f : ℝ) * s * ((2 + k * uro f) * s) = (2 * k + k * (k * uro f)) * uro f * q := by rw [← hss]; ring
    rw [e2]
    refine mul_le_mul_of_nonneg_right (mul_le_mul_of_nonneg_right (by linarith) hu.le) q0'.le
  have hlow : (q:ℝ) / 2 ≤ r * r := by
    have h1 : (2 * k + 1 / 2) * uro f * q ≤ 1 / 2 * q := mul_le_mul_of_nonneg_right (by nlinarith) q0'.le
    have := abs_le.1 (hrr.trans h1)
    linarith [this.1]
  have hup : (r:ℝ) * r ≤ 2 * q := by
    have h1 : (2 * k + 1 / 2) * uro f * q ≤ 1 / 2 * q := mul_le_mul_of_nonneg_right (by nlinarith) q0'.le
    have := abs_le.1 (hrr.trans h1)
    linarith [this.2]
  have hlq : q / 2 ≤ r * r := by exact_mod_cast hlow
  have huq : r * r ≤ 2 * q := by exact_mod_cast hup
  have p0 : 0 < r * r := by linarith
  obtain ⟨w, e⟩ := (is_fin (f := f) r false).mul (is_fin r false) (nov (by rw [abs_of_pos p0]; linarith))
  refine ⟨_, w, e, ?_⟩
  have h2 := rnd_err_rel (f := f) (q := r * r) (by
    rw [abs_of_pos p0]
    refine (minNormal_le' f).trans (le_trans ?_ hlq)
    have : (1:ℚ) / 2 ^ 125 ≤ 1 / 2 ^ 120 / 2 := by norm_num
    linarith)
  rw [abs_of_pos p0] at h2
  have h2' := (Rat.cast_le (K := ℝ)).2 h2
  generalize rnd f (r * r) = v at h2'
  push_cast at h2'
  have h3 : (v:ℝ) - q = (v - r * r) + (r * r - q) := by ring
  rw [h3]
  refine (abs_add_le _ _).trans ?_
  have h4 : (uro f : ℝ) * (r * r) ≤ uro f * q + uro f * (1 / 2 * q) := by
    have h1 : (2 * k + 1 / 2) * uro f * q ≤ 1 / 2 * q := mul_le_mul_of_nonneg_right (by nlinarith) q0'.le
    have := abs_le.1 (hrr.trans h1)
    rw [← mul_add]
    exact mul_le_mul_of_nonneg_left (by linarith [this.2]) hu.le
  linarith

/-- C82: `sqrt(x) * sqrt(x)` returns `x` up to 38, 144 or 1940 unit roundoffs. -/
theorem C82_sqrt_square (x : ℚ) (z : Bool) (h1 : 1 / 2 ^ 120 ≤ x) (h2 : x ≤ 2 ^ 120) :
    (Valid (fin x z : FV binary32) → ∃ (r : FV binary32) (t : ℚ) (w : Bool), sqrt (fin x z) = .ok r ∧ r * r = fin t w ∧
      |(t:ℝ) - x| ≤ 38 / 2 ^ 24 * x) ∧
    (Valid (fin x z : FV binary64) → ∃ (r : FV binary64) (t : ℚ) (w : Bool), sqrt (fin x z) = .ok r ∧ r * r = fin t w ∧
      |(t:ℝ) - x| ≤ 144 / 2 ^ 53 * x) ∧
    (Valid (fin x z : FV x87) → ∃ (r : FV x87) (t : ℚ) (w : Bool), sqrt (fin x z) = .ok r ∧ r * r = fin t w ∧
      |(t:ℝ) - x| ≤ 1940 / 2 ^ 64 * x) := by
  refine ⟨fun hx => ?_, fun hx => ?_, fun hx => ?_⟩
  · obtain ⟨r, e, b⟩ := C26_float x z hx (le_trans (by norm_num) h1)
    obtain ⟨t, w, et, bt⟩ := sq_back (f := binary32) (k := 18) (by norm_num) (by have := uro_le binary32; linarith)
      (by have := uro_le binary32; linarith) h1 h2 b
    refine ⟨_, t, w, e, et, bt.trans (le_of_eq ?_)⟩
    norm_num [binary32, Fmt.prec, FTy.prec]
  · obtain ⟨r, e, b⟩ := C26_double x z hx (le_trans (by norm_num) h1)
    obtain ⟨t, w, et, bt⟩ := sq_back (f := binary64) (k := 71) (by norm_num) (by have := uro_le binary64; linarith)
      (by have := uro_le binary64; linarith) h1 h2 b
    refine ⟨_, t, w, e, et, bt.trans (le_of_eq ?_)⟩
    norm_num [binary64, Fmt.prec, FTy.prec]
  · obtain ⟨r, e, b⟩ := C26_long_double x z hx (le_trans (by norm_num) h1)
    obtain ⟨t, w, et, bt⟩ := sq_back (f := x87) (k := 969) (by norm_num) (by have := uro_le x87; linarith)
      (by have := uro_le x87; linarith) h1 h2 b
    refine ⟨_, t, w, e, et, bt.trans (le_of_eq ?_)⟩
    norm_num [x87, Fmt.prec, FTy.prec]

theorem tan_shift {x δ : ℝ} (hc : Real.cos (Real.arctan x + δ) ≠ 0) (hδ : |δ| ≤ 1 / 10) (hx : |x| * |δ| ≤ 1 / 100) :
    |Real.tan (Real.arctan x + δ) - x| ≤ 103 / 100 * (1 + x ^ 2) * |δ| := by
  have hcd : 99 / 100 ≤ Real.cos δ := by
    have := Real.one_sub_sq_div_two_le_cos (x := δ)
    have h2 : δ ^ 2 ≤ (1 / 10) ^ 2 := by rw [← sq_abs]; exact pow_le_pow_left₀ (abs_nonneg _) hδ 2
    linarith
  have hsd : |Real.sin δ| ≤ |δ| := Real.abs_sin_le_abs
  have hca := Real.cos_arctan_pos x
  have hsa : Real.sin (Real.arctan x) = x * Real.cos (Real.arctan x) := by
    have := Real.tan_arctan x
    rw [Real.tan_eq_sin_div_cos, div_eq_iff hca.ne'] at this
    exact this
  have hden : Real.cos (Real.arctan x + δ) = Real.cos (Real.arctan x) * (Real.cos δ - x * Real.sin δ) := by
    rw [Real.cos_add, hsa]; ring
  have hnum : Real.sin (Real.arctan x + δ) = Real.cos (Real.arctan x) * (x * Real.cos δ + Real.sin δ) := by
    rw [Real.sin_add, hsa]; ring
  have hxs : |x * Real.sin δ| ≤ 1 / 100 := by
    rw [abs_mul]
    exact (mul_le_mul_of_nonneg_left hsd (abs_nonneg _)).trans hx
  have hd : 98 / 100 ≤ Real.cos δ - x * Real.sin δ := by
    have := abs_le.1 hxs
    linarith [this.2]
  have e : Real.tan (Real.arctan x + δ) - x = (1 + x ^ 2) * Real.sin δ / (Real.cos δ - x * Real.sin δ) := by
    rw [Real.tan_eq_sin_div_cos, hnum, hden]
    field_simp
    ring
  rw [e, abs_div, abs_mul, abs_of_pos (show 0 < 1 + x ^ 2 by positivity), abs_of_pos (show 0 < Real.cos δ - x * Real.sin δ by linarith)]
  rw [div_le_iff₀ (by linarith)]
  have h3 : (1 + x ^ 2) * |Real.sin δ| ≤ (1 + x ^ 2) * |δ| := mul_le_mul_of_nonneg_left hsd (by positivity)
  have h4 : 0 ≤ (1 + x ^ 2) * |δ| := by positivity
  nlinarith

theorem valid_atan (x : FV f) : Valid (atan x) := by
  have h : ∀ y : FV f, Valid (atan_begin y) := by
    intro y
    unfold atan_begin atan_series_main atan_cf_main
    split_ifs
    · unfold atan_series_order
      split_ifs <;> exact valid_cast _
    · exact valid_div _ _
  unfold atan atan_check
  split_ifs
  · trivial
  · exact valid_i 0
  · exact (h _).neg
  · exact h _

theorem arctan_lower {x : ℝ} (h : |x| ≤ 1000) : |x| / 1001 ≤ |Real.arctan x| := by
  have h1 : |Real.sin (Real.arctan x)| ≤ |Real.arctan x| := Real.abs_sin_le_abs
  refine le_trans ?_ h1
  rw [Real.sin_arctan, abs_div, abs_of_nonneg (Real.sqrt_nonneg _)]
  have h2 : √(1 + x ^ 2) ≤ 1001 := by
    rw [Real.sqrt_le_left (by norm_num)]
    have : x ^ 2 ≤ 1000 ^ 2 := by rw [← sq_abs]; exact pow_le_pow_left₀ (abs_nonneg _) h 2
    linarith
  have h3 : 0 < √(1 + x ^ 2) := Real.sqrt_pos.2 (by positivity)
  exact div_le_div_of_nonneg_left (abs_nonneg _) h3 h2

/-- C82: `tan(atan(x))` returns `x`, the error growing with `1 + x^2` as the slope of the tangent does. -/
theorem C82_tan_atan (hf : f.exact = false) (hty : f.ty ≠ .ldouble) (x : ℚ) (z : Bool) (hx : Valid (fin x z : FV f)) (h1 : 1 / 2 ^ 100 ≤ |x|)
    (h2 : |x| ≤ 1000) :
    ∃ r w, tan (atan (fin x z : FV f)) = .ok (fin r w) ∧
      |(r:ℝ) - x| ≤ 33 * (1 + (x:ℝ) ^ 2) * (1 / 2 ^ f.prec) * |Real.arctan x| := by
  have hu := uro_pos_real f
  have hu24 := uro_le f
  have hug : 163 / 10 ^ 19 ≤ 147 / 1000 * (uro f : ℝ) := by
    rw [uro_eq]
    rcases f with ⟨⟨⟩, ⟨⟩⟩ <;> simp at hf hty <;> norm_num [Fmt.prec, FTy.prec]
  have hmn : minNormal f ≤ |x| := (minNormal_le' f).trans (le_trans (by norm_num) h1)
  obtain ⟨y, wy, ey, by'⟩ := C45_accuracy hf x z hx hmn
  have vy : Valid (fin y wy : FV f) := by
    have := valid_atan (fin x z : FV f)
    rw [ey] at this; exact this
  have h2' : |(x:ℝ)| ≤ 1000 := by exact_mod_cast h2
  have h1' : 1 / 2 ^ 100 ≤ |(x:ℝ)| := by
    have := (Rat.cast_le (K := ℝ)).2 h1
    push_cast at this; exact this
  have hA := arctan_lower h2'
  have hA2 : |Real.arctan x| ≤ 16 / 10 := by
    have a1 := Real.arctan_lt_pi_div_two (x:ℝ)
    have a2 := Real.neg_pi_div_two_lt_arctan (x:ℝ)
    have := Real.pi_lt_d2
    rw [abs_le]; constructor <;> linarith
  rw [← uro_eq] at by' ⊢
  have hA0 : 0 ≤ |Real.arctan x| := abs_nonneg _
  have b1 : |(y:ℝ) - Real.arctan x| ≤ 1115 / 100 * uro f * |Real.arctan x| :=
    by'.trans (mul_le_mul_of_nonneg_right (by linarith) hA0)
  have huA : (uro f : ℝ) * |Real.arctan x| ≤ 1 / 16777216 * |Real.arctan x| := mul_le_mul_of_nonneg_right hu24 hA0
  have hy1 : |(y:ℝ)| ≤ 1001 / 1000 * |Real.arctan x| := by
    have := abs_sub_abs_le_abs_sub (y:ℝ) (Real.arctan x)
    linarith
  have hy2 : 1 / 2 * |Real.arctan x| ≤ |(y:ℝ)| := by
    have := abs_sub_abs_le_abs_sub (Real.arctan x) (y:ℝ)
    rw [abs_sub_comm] at this
    linarith
  have hyn : minNormal f ≤ |y| := by
    refine (minNormal_le' f).trans ?_
    have : (1:ℝ) / 2 ^ 125 ≤ |(y:ℝ)| := by
      norm_num at h1' ⊢
      linarith
    have h' : (((1:ℚ) / 2 ^ 125 : ℚ) : ℝ) ≤ ((|y| : ℚ) : ℝ) := by push_cast; exact this
    exact_mod_cast h'
  have hym : |y| ≤ 2 ^ 20 := by
    have : |(y:ℝ)| ≤ 2 ^ 20 := by norm_num; linarith
    exact_mod_cast this
  obtain ⟨r, w, θ, er, et, hc, hor⟩ := C43_tan hf y wy vy hyn hym
  rw [← uro_eq] at hor
  have hθ : |θ - y| ≤ 201 / 10 * uro f * |(y:ℝ)| := by
    rcases hor with h | h
    · exact h
    · exact absurd h.1 hty
  have hδ : |θ - Real.arctan x| ≤ 313 / 10 * uro f * |Real.arctan x| := by
    have t1 := abs_sub_le θ (y:ℝ) (Real.arctan x)
    have t2 : 201 / 10 * (uro f : ℝ) * |(y:ℝ)| ≤ 201 / 10 * uro f * (1001 / 1000 * |Real.arctan x|) := mul_le_mul_of_nonneg_left hy1 (by positivity)
    have t3 : 0 ≤ (uro f : ℝ) * |Real.arctan x| := by positivity
    linarith
  have eθ : θ = Real.arctan x + (θ - Real.arctan x) := by ring
  have hsmall : |θ - Real.arctan x| ≤ 3 / 10 ^ 6 := hδ.trans (by nlinarith)
  refine ⟨r, w, by rw [ey]; exact er, ?_⟩
  rw [← et, eθ]
  refine (tan_shift (by rw [← eθ]; exact hc) (hsmall.trans (by norm_num)) ?_).trans ?_
  · have := mul_le_mul h2' hsmall (abs_nonneg _) (by norm_num)
    linarith
  · have t4 := mul_le_mul_of_nonneg_left hδ (show 0 ≤ 103 / 100 * (1 + (x:ℝ) ^ 2) by positivity)
    refine t4.trans ?_
    have t5 : 0 ≤ (1 + (x:ℝ) ^ 2) * (uro f * |Real.arctan x|) := by positivity
    linarith

/-- C82 at points: `exp(log(3/4))`, `log(exp(-1/4))` in `float`, `tan(atan(3))` in `double` -/
example : ∃ r, (log (fin (3 / 4) false : FV binary32) >>= exp) = .ok (fin r false) ∧ |(r:ℝ) - 3 / 4| ≤ 1 / 100000 := by
  have hl : |Real.log (3 / 4)| ≤ 1 := by
    have h1 := Real.one_sub_inv_le_log_of_pos (show (0:ℝ) < 3 / 4 by norm_num)
    have h2 : Real.log (3 / 4) ≤ 0 := Real.log_nonpos (by norm_num) (by norm_num)
    rw [abs_of_nonpos h2]
    norm_num at h1 ⊢; linarith
  have hl2 : Real.log (3 / 4) ≤ 0 := Real.log_nonpos (by norm_num) (by norm_num)
  obtain ⟨r, e, h⟩ := C82_exp_log (f := binary32) rfl (3 / 4) false (by decide +kernel) (by norm_num)
    (by push_cast; have := expMin_ge .float; change _ ≤ ((expMin .float : ℕ) : ℝ) - 1; linarith)
  refine ⟨r, e, ?_⟩
  push_cast at h
  refine h.trans ?_
  have : (Fmt.prec binary32) = 24 := rfl
  rw [this]
  nlinarith

example : ∃ r w, (exp (fin (-1 / 4) false : FV binary32) >>= log) = .ok (fin r w) ∧ |(r:ℝ) - -1 / 4| ≤ 1 / 100000 := by
  obtain ⟨r, w, e, h⟩ := C82_log_exp (f := binary32) rfl (-1 / 4) false (by decide +kernel) (by norm_num) (by norm_num [expMin])
  refine ⟨r, w, e, ?_⟩
  push_cast at h
  refine h.trans ?_
  have : (Fmt.prec binary32) = 24 := rfl
  rw [this]
  norm_num [abs_of_neg]

example : ∃ r w, tan (atan (fin 3 false : FV binary64)) = .ok (fin r w) ∧ |(r:ℝ) - 3| ≤ 1 / 10 ^ 13 := by
  obtain ⟨r, w, e, h⟩ := C82_tan_atan (f := binary64) rfl (by decide) 3 false (by decide +kernel) (by norm_num [abs_of_pos]) (by norm_num [abs_of_pos])
  refine ⟨r, w, e, ?_⟩
  push_cast at h
  refine h.trans ?_
  have : (Fmt.prec binary64) = 53 := rfl
  rw [this]
  have h2 : |Real.arctan 3| ≤ 2 := by
    have a1 := Real.arctan_lt_pi_div_two 3
    have a2 := Real.neg_pi_div_two_lt_arctan 3
    have := Real.pi_lt_d2
    rw [abs_le]; constructor <;> linarith
  nlinarith

/-- `sin(1)^2 + cos(1)^2` in `double` and `sqrt(2) * sqrt(2)` in `float` -/
example : ∃ (s c : FV binary64) (t : ℚ) (w : Bool), sin (fin 1 false : FV binary64) = .ok s ∧ cos (fin 1 false : FV binary64) = .ok c ∧
    s * s + c * c = fin t w ∧ |(t:ℝ) - 1| ≤ 104 / 2 ^ 53 := by
  have hm := minNormal_le' binary64
  obtain ⟨s, c, t, w, h1, h2, h3, h4⟩ := C82_pythagoras (f := binary64) rfl (by decide) 1 false (by decide +kernel)
    (by norm_num at hm ⊢; linarith) (by norm_num)
  refine ⟨s, c, t, w, h1, h2, h3, h4.trans ?_⟩
  have : (Fmt.prec binary64) = 53 := rfl
  rw [this]
  norm_num

example : ∃ (r : FV binary32) (t : ℚ) (w : Bool), sqrt (fin 2 false) = .ok r ∧ r * r = fin t w ∧ |(t:ℝ) - (2:ℚ)| ≤ 38 / 2 ^ 24 * (2:ℚ) :=
  (C82_sqrt_square 2 false (by norm_num) (by norm_num)).1 (by decide +kernel)

end Gcem.Props
