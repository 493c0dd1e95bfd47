import Verif.Props.IgammaInvFail
import Verif.Props.IgammaSmall
import Verif.Props.ErfInvStart
import Verif.Props.ErfInvStep

/-! # The first two steps of incomplete_gamma_inv for shape 2 and small probabilities -/

namespace Gcem.Props
open FV

variable {f : Fmt}

/-- a finite value between two bounds -/
def Bd (v : FV f) (a b : ℚ) : Prop := ∃ q : ℚ, Is v q ∧ a ≤ q ∧ q ≤ b

theorem rep_dy (f : Fmt) (m : ℤ) (k : ℕ) (hm : |m| ≤ 2 ^ 24) (hk : k ≤ 140) : Rep f ((m:ℚ) / 2 ^ k) :=
  (rep_mono_prec (f := f) (g := f) (m := m) (e := -(k:ℤ)) (by rw [pow2_eq]; simp [div_eq_mul_inv]) hm (by omega)).1

/-- rounding stays between dyadic bounds -/
theorem bd_rnd {q : ℚ} (m n : ℤ) (k : ℕ) (hm : |m| ≤ 2 ^ 24) (hn : |n| ≤ 2 ^ 24) (hk : k ≤ 140) (h1 : (m:ℚ) / 2 ^ k ≤ q) (h2 : q ≤ (n:ℚ) / 2 ^ k) :
    (m:ℚ) / 2 ^ k ≤ rnd f q ∧ rnd f q ≤ (n:ℚ) / 2 ^ k :=
  ⟨le_rnd_of_rep (rep_dy f m k hm hk) h1, rnd_le_of_rep (rep_dy f n k hn hk) h2⟩

theorem dy_nov {q : ℚ} {m n : ℤ} {k : ℕ} (hm : |m| ≤ 2 ^ 24) (hn : |n| ≤ 2 ^ 24) (h1 : (m:ℚ) / 2 ^ k ≤ q) (h2 : q ≤ (n:ℚ) / 2 ^ k) : |q| ≤ 2 ^ 127 := by
  have p1 : (1:ℚ) ≤ 2 ^ k := one_le_pow₀ (by norm_num)
  have p0 : (0:ℚ) < 2 ^ k := by positivity
  have hm' : |(m:ℚ)| ≤ 2 ^ 24 := by exact_mod_cast hm
  have hn' : |(n:ℚ)| ≤ 2 ^ 24 := by exact_mod_cast hn
  rw [abs_le] at *
  rw [div_le_iff₀ p0] at h1
  rw [le_div_iff₀ p0] at h2
  constructor
  · by_contra hc; push Not at hc
    nlinarith
  · by_contra hc; push Not at hc
    nlinarith

section ops
variable {v w : FV f} {a b a' b' : ℚ} (m n : ℤ) (k : ℕ)

theorem Bd.add (hv : Bd v a b) (hw : Bd w a' b') (hm : |m| ≤ 2 ^ 24) (hn : |n| ≤ 2 ^ 24) (hk : k ≤ 140)
    (h1 : (m:ℚ) / 2 ^ k ≤ a + a') (h2 : b + b' ≤ (n:ℚ) / 2 ^ k) : Bd (v + w) ((m:ℚ) / 2 ^ k) ((n:ℚ) / 2 ^ k) := by
  obtain ⟨x, ix, x1, x2⟩ := hv
  obtain ⟨y, iy, y1, y2⟩ := hw
  have e1 : (m:ℚ) / 2 ^ k ≤ x + y := h1.trans (by linarith)
  have e2 : x + y ≤ (n:ℚ) / 2 ^ k := le_trans (by linarith) h2
  exact ⟨_, ix.add iy (nov (dy_nov hm hn e1 e2)), bd_rnd m n k hm hn hk e1 e2⟩

theorem Bd.sub (hv : Bd v a b) (hw : Bd w a' b') (hm : |m| ≤ 2 ^ 24) (hn : |n| ≤ 2 ^ 24) (hk : k ≤ 140)
    (h1 : (m:ℚ) / 2 ^ k ≤ a - b') (h2 : b - a' ≤ (n:ℚ) / 2 ^ k) : Bd (v - w) ((m:ℚ) / 2 ^ k) ((n:ℚ) / 2 ^ k) := by
  obtain ⟨x, ix, x1, x2⟩ := hv
  obtain ⟨y, iy, y1, y2⟩ := hw
  have e1 : (m:ℚ) / 2 ^ k ≤ x - y := h1.trans (by linarith)
  have e2 : x - y ≤ (n:ℚ) / 2 ^ k := le_trans (by linarith) h2
  exact ⟨_, ix.sub iy (nov (dy_nov hm hn e1 e2)), bd_rnd m n k hm hn hk e1 e2⟩

/-- both factors nonnegative -/
theorem Bd.mul (hv : Bd v a b) (hw : Bd w a' b') (ha : 0 ≤ a) (ha' : 0 ≤ a') (hm : |m| ≤ 2 ^ 24) (hn : |n| ≤ 2 ^ 24) (hk : k ≤ 140)
    (h1 : (m:ℚ) / 2 ^ k ≤ a * a') (h2 : b * b' ≤ (n:ℚ) / 2 ^ k) : Bd (v * w) ((m:ℚ) / 2 ^ k) ((n:ℚ) / 2 ^ k) := by
  obtain ⟨x, ix, x1, x2⟩ := hv
  obtain ⟨y, iy, y1, y2⟩ := hw
  have e1 : (m:ℚ) / 2 ^ k ≤ x * y := h1.trans (mul_le_mul x1 y1 ha' (ha.trans x1))
  have e2 : x * y ≤ (n:ℚ) / 2 ^ k := le_trans (mul_le_mul x2 y2 (ha'.trans y1) ((ha.trans x1).trans x2)) h2
  exact ⟨_, ix.mul iy (nov (dy_nov hm hn e1 e2)), bd_rnd m n k hm hn hk e1 e2⟩

/-- numerator nonnegative, denominator positive -/
theorem Bd.div (hv : Bd v a b) (hw : Bd w a' b') (ha : 0 ≤ a) (ha' : 0 < a') (hm : |m| ≤ 2 ^ 24) (hn : |n| ≤ 2 ^ 24) (hk : k ≤ 140)
    (h1 : (m:ℚ) / 2 ^ k ≤ a / b') (h2 : b / a' ≤ (n:ℚ) / 2 ^ k) : Bd (v / w) ((m:ℚ) / 2 ^ k) ((n:ℚ) / 2 ^ k) := by
  obtain ⟨x, ix, x1, x2⟩ := hv
  obtain ⟨y, iy, y1, y2⟩ := hw
  have y0 : 0 < y := lt_of_lt_of_le ha' y1
  have e1 : (m:ℚ) / 2 ^ k ≤ x / y := h1.trans (div_le_div₀ (ha.trans x1) x1 y0 y2)
  have e2 : x / y ≤ (n:ℚ) / 2 ^ k := le_trans (div_le_div₀ ((ha.trans x1).trans x2) x2 ha' y1) h2
  exact ⟨_, ix.div iy y0.ne' (nov (dy_nov hm hn e1 e2)), bd_rnd m n k hm hn hk e1 e2⟩

end ops

theorem Bd.mono {v : FV f} {a b a' b' : ℚ} (h : Bd v a b) (h1 : a' ≤ a) (h2 : b ≤ b') : Bd v a' b' := by
  obtain ⟨x, ix, x1, x2⟩ := h; exact ⟨x, ix, h1.trans x1, x2.trans h2⟩

theorem bd_i (n : ℤ) (h : |n| ≤ 16777216) : Bd (i n : FV f) n n := ⟨n, is_i h, le_refl _, le_refl _⟩

theorem bd_L (f : Fmt) {c : ℚ} (hc : |c| ≤ 3) (a b : ℚ) (h1 : a + 1 / 1000000 ≤ c) (h2 : c + 1 / 1000000 ≤ b) : Bd (L c : FV f) a b := by
  obtain ⟨c', i1, e⟩ := L_near f (c := c) (hc.trans (by norm_num))
  have hc' : |(c:ℝ)| ≤ 3 := by exact_mod_cast hc
  have u1 := uro_le f
  have u0 := uro_pos_real f
  have : |(c':ℝ) - c| ≤ ((1 / 1000000 : ℚ) : ℝ) := e.trans (by push_cast; nlinarith [abs_nonneg (c:ℝ)])
  have : |c' - c| ≤ 1 / 1000000 := by exact_mod_cast this
  rw [abs_le] at this
  exact ⟨c', i1, by linarith, by linarith⟩

/-- the start value before the cube: the normal quantile -/
theorem ie_begin {t : FV f} (ht : Bd t (19 / 4) 6) : Bd (incomplete_gamma_inv_initial_val_1_int_begin t) 4 6 := by
  unfold incomplete_gamma_inv_initial_val_1_int_begin
  have n1 := (bd_L f (c := 0.802853) (by norm_num [abs_le]) (8 / 10) (803 / 1000) (by norm_num) (by norm_num)).mul 3 5 0 ht (by norm_num) (by norm_num) (by norm_num) (by norm_num) (by norm_num) (by norm_num) (by norm_num)
  have n2 := (bd_L f (c := 2.515517) (by norm_num [abs_le]) 2 (252 / 100) (by norm_num) (by norm_num)).add 5 8 0 n1 (by norm_num) (by norm_num) (by norm_num) (by norm_num) (by norm_num)
  have n3 := ((bd_L f (c := 0.010328) (by norm_num [abs_le]) 0 (11 / 1000) (by norm_num) (by norm_num)).mul 0 5 6 ht (by norm_num) (by norm_num) (by norm_num) (by norm_num) (by norm_num) (by norm_num) (by norm_num)).mul 0 1 1 ht (by norm_num) (by norm_num) (by norm_num) (by norm_num) (by norm_num) (by norm_num) (by norm_num)
  have N := n2.add 4 17 1 n3 (by norm_num) (by norm_num) (by norm_num) (by norm_num) (by norm_num)
  have d1 := (bd_L f (c := 1.432788) (by norm_num [abs_le]) (143 / 100) (144 / 100) (by norm_num) (by norm_num)).mul 27 36 2 ht (by norm_num) (by norm_num) (by norm_num) (by norm_num) (by norm_num) (by norm_num) (by norm_num)
  have d2 := (bd_i (f := f) 1 (by norm_num)).add 31 40 2 d1 (by norm_num) (by norm_num) (by norm_num) (by norm_num) (by norm_num)
  have d3 := ((bd_L f (c := 0.189269) (by norm_num [abs_le]) (189 / 1000) (190 / 1000) (by norm_num) (by norm_num)).mul 57 80 6 ht (by norm_num) (by norm_num) (by norm_num) (by norm_num) (by norm_num) (by norm_num) (by norm_num)).mul 16 32 2 ht (by norm_num) (by norm_num) (by norm_num) (by norm_num) (by norm_num) (by norm_num) (by norm_num)
  have d4 := (((bd_L f (c := 0.001308) (by norm_num [abs_le]) 0 (2 / 1000) (by norm_num) (by norm_num)).mul 0 1 6 ht (by norm_num) (by norm_num) (by norm_num) (by norm_num) (by norm_num) (by norm_num) (by norm_num)).mul 0 1 3 ht (by norm_num) (by norm_num) (by norm_num) (by norm_num) (by norm_num) (by norm_num) (by norm_num)).mul 0 1 0 ht (by norm_num) (by norm_num) (by norm_num) (by norm_num) (by norm_num) (by norm_num) (by norm_num)
  have D := (d2.add 47 72 2 d3 (by norm_num) (by norm_num) (by norm_num) (by norm_num) (by norm_num)).add 47 76 2 d4 (by norm_num) (by norm_num) (by norm_num) (by norm_num) (by norm_num)
  have Q := N.div 0 3 2 D (by norm_num) (by norm_num) (by norm_num) (by norm_num) (by norm_num) (by norm_num) (by norm_num)
  have := ht.sub 16 24 2 Q (by norm_num) (by norm_num) (by norm_num) (by norm_num) (by norm_num)
  exact this.mono (by norm_num) (by norm_num)

theorem Bd.fin {v : FV f} {a b : ℚ} (h : Bd v a b) : ∃ q z, v = fin q z ∧ a ≤ q ∧ q ≤ b := by
  obtain ⟨q, ⟨z, e⟩, h1, h2⟩ := h; exact ⟨q, z, e, h1, h2⟩

/-- `double`: square roots between two bounds -/
theorem ie_sqrt {x : FV binary64} {a b c e : ℚ} (hx : Bd x a b) (hv : Valid x) (a0 : 1 ≤ a) (c0 : 0 ≤ c) (e0 : 0 ≤ e)
    (h1 : (c * (1 + 1 / 10 ^ 6)) ^ 2 ≤ a) (h2 : b * (1 + 1 / 10 ^ 6) ^ 2 ≤ e ^ 2) : ∃ s, sqrt x = .ok s ∧ Bd s c e := by
  obtain ⟨q, z, rfl, q1, q2⟩ := hx.fin
  obtain ⟨r, er, hr⟩ := C26_double q z hv (le_trans (by norm_num) (a0.trans q1))
  refine ⟨_, er, r, is_fin _ _, ?_⟩
  have q1' : (1:ℝ) ≤ q := by exact_mod_cast a0.trans q1
  have h1' : ((c:ℝ) * (1 + 1 / 10 ^ 6)) ^ 2 ≤ q := by
    have := (Rat.cast_le (K := ℝ)).2 (h1.trans q1); push_cast at this; exact this
  have h2' : (q:ℝ) * (1 + 1 / 10 ^ 6) ^ 2 ≤ e ^ 2 := by
    have := (Rat.cast_le (K := ℝ)).2 ((mul_le_mul_of_nonneg_right q2 (by positivity)).trans h2); push_cast at this; exact this
  have c0' : (0:ℝ) ≤ c := by exact_mod_cast c0
  have e0' : (0:ℝ) ≤ e := by exact_mod_cast e0
  have s0 := Real.sqrt_nonneg (q:ℝ)
  have l1 : (c:ℝ) * (1 + 1 / 10 ^ 6) ≤ √(q:ℝ) := Real.le_sqrt_of_sq_le h1'
  have l2 : √(q:ℝ) * (1 + 1 / 10 ^ 6) ≤ e := by
    have : √(q:ℝ) * (1 + 1 / 10 ^ 6) = √((q:ℝ) * (1 + 1 / 10 ^ 6) ^ 2) := by
      rw [Real.sqrt_mul (by linarith), Real.sqrt_sq (by norm_num)]
    rw [this]; exact Real.sqrt_le_iff.2 ⟨e0', h2'⟩
  have hr' := abs_le.1 hr
  have k : (71:ℝ) / 2 ^ 53 * √(q:ℝ) ≤ 1 / 10 ^ 7 * √(q:ℝ) := mul_le_mul_of_nonneg_right (by norm_num) s0
  constructor
  · have : (c:ℝ) ≤ r := by nlinarith
    exact_mod_cast this
  · have : (r:ℝ) ≤ e := by nlinarith
    exact_mod_cast this

theorem ie_d4 : ∃ x : ℚ, (d 1e-4 : FV binary64) = fin x false ∧ 9999 / 10 ^ 8 ≤ x ∧ x ≤ 10001 / 10 ^ 8 :=
  ⟨7378697629483821/73786976294838206464, by decide +kernel, by norm_num, by norm_num⟩

/-- the cube is so small that the lower bound `1e-4` is the start value -/
theorem ie_end {x : FV binary64} (hx : Bd x 4 6) : incomplete_gamma_inv_initial_val_1_int_end x (i 2) = .ok (d 1e-4) := by
  unfold incomplete_gamma_inv_initial_val_1_int_end
  obtain ⟨s, es, hs⟩ := ie_sqrt (c := 141 / 100) (e := 1415 / 1000) (bd_i (f := binary64) 2 (by norm_num)) (valid_i _) (by norm_num) (by norm_num) (by norm_num) (by norm_num) (by norm_num)
  rw [es]
  have a1 := (bd_i (f := binary64) 3 (by norm_num)).mul 33 34 3 hs (by norm_num) (by norm_num) (by norm_num) (by norm_num) (by norm_num) (by norm_num) (by norm_num)
  have a2 := hx.div 15 24 4 a1 (by norm_num) (by norm_num) (by norm_num) (by norm_num) (by norm_num) (by norm_num) (by norm_num)
  have a3 := (bd_i (f := binary64) 9 (by norm_num)).mul 18 18 0 (bd_i (f := binary64) 2 (by norm_num)) (by norm_num) (by norm_num) (by norm_num) (by norm_num) (by norm_num) (by norm_num) (by norm_num)
  have a4 := (bd_i (f := binary64) 1 (by norm_num)).div 14 15 8 a3 (by norm_num) (by norm_num) (by norm_num) (by norm_num) (by norm_num) (by norm_num) (by norm_num)
  have a5 := (bd_i (f := binary64) 1 (by norm_num)).sub 241 242 8 a4 (by norm_num) (by norm_num) (by norm_num) (by norm_num) (by norm_num)
  have a6 := a5.sub (-160) 8 8 a2 (by norm_num) (by norm_num) (by norm_num) (by norm_num) (by norm_num)
  obtain ⟨B, zB, eB, B1, B2⟩ := a6.fin
  show Except.ok _ = _
  rw [eB]
  have cube : pow_integral_int (fin B zB : FV binary64) 3 = fin B zB * fin B zB * fin B zB := by
    unfold pow_integral_int pow_integral_compute
    rw [if_neg (by norm_num)]; rfl
  rw [cube]
  obtain ⟨x4, e4, x41, -⟩ := ie_d4
  rw [e4]
  congr 1
  unfold fmax
  rw [if_pos]
  norm_num at B1 B2
  have key : Bd (i 2 * (fin B zB * fin B zB * fin B zB) : FV binary64) (-4) (1 / 2 ^ 14) := by
    have sq : |B * B| ≤ 2 ^ 0 := by rw [abs_le]; constructor <;> nlinarith
    have i1 := (is_fin (f := binary64) B zB).mul (is_fin B zB) (nov (sq.trans (by norm_num)))
    have b1 : (0:ℤ) / 2 ^ 10 ≤ rnd binary64 (B * B) ∧ rnd binary64 (B * B) ≤ ((1024:ℤ):ℚ) / 2 ^ 10 :=
      bd_rnd 0 1024 10 (by norm_num) (by norm_num) (by norm_num) (by norm_num; nlinarith) (by norm_num; nlinarith)
    have b1' : 0 ≤ B → rnd binary64 (B * B) ≤ ((1:ℤ):ℚ) / 2 ^ 10 := fun h =>
      rnd_le_of_rep (rep_dy _ 1 10 (by norm_num) (by norm_num)) (by norm_num; nlinarith)
    generalize rnd binary64 (B * B) = R at *
    norm_num at b1 b1'
    have cu : (((-1:ℤ):ℚ) / 2 ^ 0 ≤ R * B) ∧ R * B ≤ ((1:ℤ):ℚ) / 2 ^ 15 := by
      norm_num
      constructor
      · nlinarith
      · rcases le_total 0 B with h | h
        · have := b1' h; nlinarith
        · nlinarith
    have c1 : |R * B| ≤ 2 ^ 1 := by rw [abs_le]; norm_num at cu ⊢; constructor <;> linarith
    have i2 := i1.mul (is_fin (f := binary64) B zB) (nov (c1.trans (by norm_num)))
    have l1 := le_rnd_of_rep (f := binary64) (rep_dy _ (-1) 0 (by norm_num) (by norm_num)) cu.1
    have l2 := rnd_le_of_rep (f := binary64) (rep_dy _ 1 15 (by norm_num) (by norm_num)) cu.2
    generalize rnd binary64 (R * B) = C at *
    norm_num at l1 l2
    have i3 := (is_i (f := binary64) (n := 2) (by norm_num)).mul i2 (nov (by rw [abs_le]; norm_num; constructor <;> linarith))
    have m1 := le_rnd_of_rep (f := binary64) (q := ((2:ℤ):ℚ) * C) (rep_dy _ (-4) 0 (by norm_num) (by norm_num)) (by norm_num; linarith)
    have m2 := rnd_le_of_rep (f := binary64) (q := ((2:ℤ):ℚ) * C) (rep_dy _ 1 14 (by norm_num) (by norm_num)) (by norm_num; linarith)
    exact ⟨_, i3, by norm_num at m1 ⊢; exact m1, by norm_num at m2 ⊢; exact m2⟩
  obtain ⟨K, zK, eK, -, K2⟩ := key.fin
  rw [eK, fin_lt]
  norm_num at K2 x41
  linarith

/-- `double`: the start value of the iteration is `1e-4` for every probability in the range -/
theorem ie_start {p : ℚ} {z : Bool} (hp : Valid (fin p z : FV binary64)) (p1 : 2 / 10 ^ 7 ≤ p) (p2 : p ≤ 1 / 10 ^ 6) :
    incomplete_gamma_inv_initial_val (i 2) (fin p z : FV binary64) = .ok (d 1e-4) := by
  unfold incomplete_gamma_inv_initial_val incomplete_gamma_inv_t_val_1 incomplete_gamma_inv_initial_val_1
  have i2 : (i 2 : FV binary64) = fin 2 false := by decide +kernel
  have hh : ¬ (fin p z : FV binary64) > d 0.5 := by
    have : (d 0.5 : FV binary64) = fin (1/2) false := by decide +kernel
    rw [this, gt_iff_lt, fin_lt]; linarith
  rw [if_pos (show (i 2 : FV binary64) > i 1 by decide +kernel), if_neg hh, if_neg hh]
  obtain ⟨l, w, j, el, hl, hj, -⟩ := C37_small (f := binary64) rfl p z hp (by
    have : minNormal binary64 ≤ 1 / 10 ^ 7 := by decide +kernel
    linarith) (by linarith)
  rw [el]
  have p1' : (2 / 10 ^ 7 : ℝ) ≤ p := by have := (Rat.cast_le (K := ℝ)).2 p1; push_cast at this; exact this
  have p2' : (p:ℝ) ≤ 1 / 10 ^ 6 := by have := (Rat.cast_le (K := ℝ)).2 p2; push_cast at this; exact this
  have p0 : (0:ℝ) < p := lt_of_lt_of_le (by norm_num) p1'
  have L2a := Real.log_two_gt_d9
  have L2b := Real.log_two_lt_d9
  have L10a : (2.302 : ℝ) ≤ Real.log 10 := by
    have h : Real.log (2 ^ 93) ≤ Real.log (10 ^ 28) := Real.log_le_log (by positivity) (by norm_num)
    rw [Real.log_pow, Real.log_pow] at h; norm_num at h ⊢; linarith
  have L10b : Real.log 10 ≤ (2.3027 : ℝ) := by
    have h : Real.log (10 ^ 59) ≤ Real.log (2 ^ 196) := Real.log_le_log (by positivity) (by norm_num)
    rw [Real.log_pow, Real.log_pow] at h; norm_num at h ⊢; linarith
  have lp2 : Real.log p ≤ -(6 * Real.log 10) := by
    have := Real.log_le_log p0 p2'
    rwa [Real.log_div (by norm_num) (by norm_num), Real.log_one, Real.log_pow, zero_sub] at this
  have lp1 : Real.log 2 - 7 * Real.log 10 ≤ Real.log p := by
    have := Real.log_le_log (by norm_num) p1'
    rwa [Real.log_div (by norm_num) (by norm_num), Real.log_pow] at this
  have hab : |Real.log p| ≤ 20 := by rw [abs_le]; constructor <;> linarith
  have hl' : |(l:ℝ) - (Real.log p + j * Real.log 10)| ≤ 1 / 1000 := hl.trans (by
    rw [show binary64.prec = 53 from rfl]; nlinarith [abs_nonneg (Real.log p)])
  have lb : ((-71/4 : ℚ) : ℝ) ≤ l ∧ (l:ℝ) ≤ ((-23/2 : ℚ) : ℝ) := by
    rw [abs_le] at hl'
    push_cast
    rcases hj with rfl | rfl | rfl <;> push_cast at hl' <;> constructor <;> linarith
  have l1 : -71/4 ≤ l := by exact_mod_cast lb.1
  have l2 : l ≤ -23/2 := by exact_mod_cast lb.2
  have im : (i (-2) : FV binary64) = fin (-2) false := by decide +kernel
  have hY : Bd (i (-2) * fin l w : FV binary64) (23:ℚ) (143 / 4) := by
    have b := bd_rnd (f := binary64) (q := -2 * l) 92 143 2 (by norm_num) (by norm_num) (by norm_num) (by norm_num; linarith) (by norm_num; linarith)
    refine ⟨_, by rw [im]; exact (is_fin (-2) false).mul (is_fin l w) (nov (by rw [abs_le]; norm_num; constructor <;> linarith)), ?_⟩
    norm_num at b ⊢; exact b
  obtain ⟨t, et, ht⟩ := ie_sqrt (c := 19 / 4) (e := 6) hY (valid_mul _ _) (by norm_num) (by norm_num) (by norm_num) (by norm_num) (by norm_num)
  show (sqrt (i (-2) * fin l w : FV binary64)).bind _ = _
  rw [et]
  show incomplete_gamma_inv_initial_val_1_int_end _ _ = _
  have hb := ie_begin ht
  exact ie_end (((bd_i (f := binary64) 1 (by norm_num)).mul 4 6 0 hb (by norm_num) (by norm_num) (by norm_num) (by norm_num) (by norm_num) (by norm_num) (by norm_num)).mono (by norm_num) (by norm_num))

/-- the density at the start value, and `incomplete_gamma` there -/
theorem ie_lg : lgamma (i 2 : FV binary64) = .ok (i 0) := by decide +kernel
theorem ie_D : incomplete_gamma_inv_deriv_1 (d 1e-4 : FV binary64) (i 2) (i 0) = .ok (fin (7377959796613127/73786976294838206464) false) := by decide +kernel
theorem ie_F0 : incomplete_gamma (i 2 : FV binary64) (d 1e-4) = .ok (fin (94441033404861/18889465931478580854784) false) := by decide +kernel
theorem ie_R2 : incomplete_gamma_inv_ratio_val_2 (d 1e-4 : FV binary64) (i 2) (fin (7377959796613127/73786976294838206464) false) = fin 9999 false := by decide +kernel
theorem ie_x4 : (d 1e-4 : FV binary64) = fin (7378697629483821/73786976294838206464) false := by decide +kernel
theorem ie_d12 : (d 1.2 : FV binary64) = fin (5404319552844595/4503599627370496) false := by decide +kernel

/-- the first step -/
theorem ie_step1 {p : ℚ} {z : Bool} (a b s1 s2 r1 r2 g1 g2 v1 v2 : ℤ) (p1 : (a:ℚ) / 10 ^ 7 ≤ p) (p2 : p ≤ b / 10 ^ 7)
    (m : |s1| ≤ 2 ^ 24 ∧ |s2| ≤ 2 ^ 24 ∧ |r1| ≤ 2 ^ 24 ∧ |r2| ≤ 2 ^ 24 ∧ |g1| ≤ 2 ^ 24 ∧ |g2| ≤ 2 ^ 24 ∧ |v1| ≤ 2 ^ 24 ∧ |v2| ≤ 2 ^ 24)
    (hs : (s1:ℚ) / 2 ^ 40 ≤ 94441033404861/18889465931478580854784 - b / 10 ^ 7 ∧ 94441033404861/18889465931478580854784 - a / 10 ^ 7 ≤ (s2:ℚ) / 2 ^ 40)
    (hr : (r1:ℚ) / 2 ^ 30 ≤ s1 / 2 ^ 40 / (7377959796613127/73786976294838206464) ∧ (s2:ℚ) / 2 ^ 40 / (7377959796613127/73786976294838206464) ≤ (r2:ℚ) / 2 ^ 30)
    (hr2 : r2 ≤ -1048576)
    (hg : (g1:ℚ) / 2 ^ 30 ≤ r1 / 2 ^ 30 / (5404319552844595/4503599627370496) ∧ (r2:ℚ) / 2 ^ 30 / (5404319552844595/4503599627370496) ≤ (g2:ℚ) / 2 ^ 30)
    (hv : (v1:ℚ) / 2 ^ 30 ≤ 7378697629483821/73786976294838206464 - g2 / 2 ^ 30 ∧ 7378697629483821/73786976294838206464 - g1 / 2 ^ 30 ≤ (v2:ℚ) / 2 ^ 30) :
    ∃ q1, incomplete_gamma_inv_ratio_val_1 (d 1e-4 : FV binary64) (i 2) (fin p z) (fin (7377959796613127/73786976294838206464) false) = .ok q1 ∧
      Bd (d 1e-4 - halley q1 (fin 9999 false) : FV binary64) (v1 / 2 ^ 30) (v2 / 2 ^ 30) := by
  obtain ⟨m1, m2, m3, m4, m5, m6, m7, m8⟩ := m
  unfold incomplete_gamma_inv_ratio_val_1
  rw [ie_F0]
  refine ⟨_, rfl, ?_⟩
  have S : Bd (fin (94441033404861/18889465931478580854784) false - fin p z : FV binary64) ((s1:ℚ) / 2 ^ 40) ((s2:ℚ) / 2 ^ 40) :=
    Bd.sub s1 s2 40 ⟨_, is_fin _ _, le_refl _, le_refl _⟩ ⟨p, is_fin _ _, p1, p2⟩ m1 m2 (by norm_num) hs.1 hs.2
  obtain ⟨q, iq, q1, q2⟩ := S
  have e1 : (r1:ℚ) / 2 ^ 30 ≤ q / (7377959796613127/73786976294838206464) := hr.1.trans (div_le_div_of_nonneg_right q1 (by norm_num))
  have e2 : q / (7377959796613127/73786976294838206464) ≤ (r2:ℚ) / 2 ^ 30 := (div_le_div_of_nonneg_right q2 (by norm_num)).trans hr.2
  have iR := iq.div (is_fin (f := binary64) (7377959796613127/73786976294838206464) false) (by norm_num) (nov (dy_nov m3 m4 e1 e2))
  obtain ⟨R1, R2⟩ := bd_rnd (f := binary64) r1 r2 30 m3 m4 (by norm_num) e1 e2
  generalize (fin (94441033404861/18889465931478580854784) false - fin p z : FV binary64) / fin (7377959796613127/73786976294838206464) false = Q at *
  generalize rnd binary64 (q / (7377959796613127/73786976294838206464)) = R at *
  have r2q : (r2:ℚ) ≤ -1048576 := by exact_mod_cast hr2
  have r1q : -2 ^ 24 ≤ (r1:ℚ) := by have := (abs_le.1 m3).1; exact_mod_cast this
  have Ra : -1 / 64 ≤ R := le_trans (by rw [le_div_iff₀ (by positivity)]; norm_num; norm_num at r1q; linarith) R1
  have Rb : R ≤ -1 / 1024 := R2.trans (by rw [div_le_iff₀ (by positivity)]; norm_num; linarith)
  -- the clamp is active
  have i1 := (is_d_half (f := binary64)).mul iR (nov (by rw [abs_le]; constructor <;> norm_num <;> linarith))
  have b1 := bd_rnd (f := binary64) (q := 1 / 2 * R) (-16) (-1) 11 (by norm_num) (by norm_num) (by norm_num) (by norm_num; linarith) (by norm_num; linarith)
  generalize rnd binary64 (1 / 2 * R) = H at *
  norm_num at b1
  have i2 := i1.mul (is_fin (f := binary64) 9999 false) (nov (by rw [abs_le]; constructor <;> norm_num <;> linarith))
  have b2 := bd_rnd (f := binary64) (q := H * 9999) (-10000) (-1) 0 (by norm_num) (by norm_num) (by norm_num) (by norm_num; linarith) (by norm_num; linarith)
  generalize rnd binary64 (H * 9999) = K at *
  norm_num at b2
  have i3 := (is_i (f := binary64) (n := 1) (by norm_num)).sub i2 (nov (by rw [abs_le]; constructor <;> norm_num <;> linarith))
  have b3 := bd_rnd (f := binary64) (q := ((1:ℤ):ℚ) - K) 2 20000 0 (by norm_num) (by norm_num) (by norm_num) (by norm_num; linarith) (by norm_num; linarith)
  have cl : fmax (d 0.8) (fmin (d 1.2) (i 1 - d 0.5 * Q * fin 9999 false)) = (d 1.2 : FV binary64) := by
    have e : fmin (d 1.2) (i 1 - d 0.5 * Q * fin 9999 false) = (d 1.2 : FV binary64) :=
      if_pos (by rw [ie_d12]; exact ((is_fin _ _).lt_iff i3).2 (by norm_num at b3 ⊢; linarith))
    rw [e]
    exact if_neg (by decide +kernel)
  unfold halley
  rw [cl, ie_d12]
  have f1 : (g1:ℚ) / 2 ^ 30 ≤ R / (5404319552844595/4503599627370496) := hg.1.trans (div_le_div_of_nonneg_right R1 (by norm_num))
  have f2 : R / (5404319552844595/4503599627370496) ≤ (g2:ℚ) / 2 ^ 30 := (div_le_div_of_nonneg_right R2 (by norm_num)).trans hg.2
  have iG := iR.div (is_fin (f := binary64) (5404319552844595/4503599627370496) false) (by norm_num) (nov (dy_nov m5 m6 f1 f2))
  obtain ⟨G1, G2⟩ := bd_rnd (f := binary64) g1 g2 30 m5 m6 (by norm_num) f1 f2
  rw [ie_x4]
  exact Bd.sub v1 v2 30 ⟨_, is_fin _ _, le_refl _, le_refl _⟩ ⟨_, iG, G1, G2⟩ m7 m8 (by norm_num) hv.1 hv.2

/-- `incomplete_gamma(2, v)` between two multiples of `v^2` -/
theorem ie_val {v : ℚ} {z : Bool} (hv : Valid (fin v z : FV binary64)) (h1 : 1 / 500 ≤ v) (h2 : v ≤ 9 / 1000) :
    ∃ E w, incomplete_gamma (i 2 : FV binary64) (fin v z) = .ok (fin E w) ∧ 49 / 100 * v ^ 2 ≤ E ∧ E ≤ 2 * v ^ 2 := by
  obtain ⟨E, w, e, b⟩ := C100_poisson (f := binary64) rfl 2 v z hv (by norm_num) (by norm_num) h1 (by linarith)
    (by rw [lt_abs]; right; linarith) (by rw [lt_abs]; right; linarith) (by nlinarith)
  refine ⟨E, w, by rw [show (i 2 : FV binary64) = fin ((2:ℕ):ℚ) false by decide +kernel]; exact e, ?_⟩
  have v1 : (1 / 500 : ℝ) ≤ v := by have := (Rat.cast_le (K := ℝ)).2 h1; push_cast at this; exact this
  have v2 : (v:ℝ) ≤ 9 / 1000 := by have := (Rat.cast_le (K := ℝ)).2 h2; push_cast at this; exact this
  have v0 : (0:ℝ) < v := by linarith
  have hs : (1 - ∑ k ∈ Finset.range 2, Real.exp (-v) * (v:ℝ) ^ k / k.factorial) = 1 - Real.exp (-v) * (1 + v) := by
    rw [Finset.sum_range_succ, Finset.sum_range_one]; simp; ring
  rw [hs] at b
  have el : 1 - (v:ℝ) ≤ Real.exp (-v) := by have := Real.add_one_le_exp (-(v:ℝ)); linarith
  have eu : 1 + (v:ℝ) + v ^ 2 / 2 ≤ Real.exp v := Real.quadratic_le_exp_of_nonneg v0.le
  have ep := Real.exp_pos (-(v:ℝ))
  have em : Real.exp (-(v:ℝ)) * Real.exp v = 1 := by rw [← Real.exp_add]; simp
  have I1 : (495 / 1000 : ℝ) * v ^ 2 ≤ 1 - Real.exp (-v) * (1 + v) := by
    have : Real.exp (-(v:ℝ)) * (1 + v + v ^ 2 / 2) ≤ 1 := by
      have := mul_le_mul_of_nonneg_left eu ep.le
      rwa [em] at this
    have : Real.exp (-(v:ℝ)) * (v ^ 2 / 2) ≤ 1 - Real.exp (-v) * (1 + v) := by linarith
    have : (1 - (v:ℝ)) * (v ^ 2 / 2) ≤ Real.exp (-(v:ℝ)) * (v ^ 2 / 2) := mul_le_mul_of_nonneg_right el (by positivity)
    nlinarith [sq_nonneg (v:ℝ)]
  have I2 : 1 - Real.exp (-(v:ℝ)) * (1 + v) ≤ v ^ 2 := by
    have : (1 - (v:ℝ)) * (1 + v) ≤ Real.exp (-v) * (1 + v) := mul_le_mul_of_nonneg_right el (by linarith)
    nlinarith
  have hlog : |Real.log v| ≤ 500 := by
    have a := Real.log_le_sub_one_of_pos v0
    have b := Real.one_sub_inv_le_log_of_pos v0
    have : (v:ℝ)⁻¹ ≤ 500 := by rw [inv_le_comm₀ v0 (by norm_num)]; linarith
    rw [abs_le]; constructor <;> linarith
  have hk : ((940 + 160 * ((2:ℕ):ℝ) + 17 * (((2:ℕ):ℝ) * |Real.log v|)) / 2 ^ binary64.prec + 24 / 10 ^ 15 : ℝ) ≤ 1 / 1000 := by
    rw [show binary64.prec = 53 from rfl]
    have : (940 + 160 * ((2:ℕ):ℝ) + 17 * (((2:ℕ):ℝ) * |Real.log v|)) ≤ 20000 := by push_cast; linarith
    have := div_le_div_of_nonneg_right this (show (0:ℝ) ≤ 2 ^ 53 by positivity)
    refine (add_le_add_left this _).trans (by norm_num)
  have v20 : (0:ℝ) < v ^ 2 := by positivity
  generalize (1 - Real.exp (-(v:ℝ)) * (1 + v)) = I at *
  have b' := b.trans (mul_le_mul_of_nonneg_right hk (by linarith : (0:ℝ) ≤ I))
  rw [abs_le] at b'
  constructor
  · have : (49 / 100 : ℝ) * v ^ 2 ≤ E := by linarith
    have : ((49 / 100 * v ^ 2 : ℚ) : ℝ) ≤ E := by push_cast; exact this
    exact_mod_cast this
  · have : (E:ℝ) ≤ 2 * v ^ 2 := by linarith
    have : (E:ℝ) ≤ ((2 * v ^ 2 : ℚ) : ℝ) := by push_cast; exact this
    exact_mod_cast this

/-- the second step leads below zero -/
theorem ie_step2 {p v : ℚ} {z zv : Bool} (hv : Valid (fin v zv : FV binary64)) (h1 : 1 / 400 ≤ v) (h2 : v ≤ 84 / 10 ^ 4) (p0 : 0 ≤ p)
    (hE : 26 / 10 ^ 7 ≤ 49 / 100 * v ^ 2 - p) :
    ∃ q1, incomplete_gamma_inv_ratio_val_1 (fin v zv : FV binary64) (i 2) (fin p z) (fin (7377959796613127/73786976294838206464) false) = .ok q1 ∧
      (fin v zv : FV binary64) - halley q1 (incomplete_gamma_inv_ratio_val_2 (fin v zv) (i 2) (fin (7377959796613127/73786976294838206464) false)) < i 0 := by
  obtain ⟨E, w, eE, E1, E2⟩ := ie_val hv (by linarith) (by linarith)
  unfold incomplete_gamma_inv_ratio_val_1
  rw [eE]
  refine ⟨_, rfl, ?_⟩
  have S : Bd (fin E w - fin p z : FV binary64) (((2000000:ℤ):ℚ) / 2 ^ 40) (((200000 : ℤ):ℚ) / 2 ^ 30) := by
    have e1 : ((2000000:ℤ):ℚ) / 2 ^ 40 ≤ E - p := by norm_num; linarith
    have e2 : E - p ≤ ((200000 : ℤ):ℚ) / 2 ^ 30 := by norm_num; nlinarith
    refine ⟨_, (is_fin E w).sub (is_fin p z) (nov (by rw [abs_le]; norm_num at e1 e2 ⊢; constructor <;> linarith)), ?_, ?_⟩
    · exact le_rnd_of_rep (rep_dy _ _ _ (by norm_num) (by norm_num)) e1
    · exact rnd_le_of_rep (rep_dy _ _ _ (by norm_num) (by norm_num)) e2
  have bD : Bd (fin (7377959796613127/73786976294838206464) false : FV binary64) (9998 / 10 ^ 8) (10001 / 10 ^ 8) := ⟨_, is_fin _ _, by norm_num, by norm_num⟩
  have R := S.div 18600 2000000 20 bD (by norm_num) (by norm_num) (by norm_num) (by norm_num) (by norm_num) (by norm_num) (by norm_num)
  have bv : Bd (fin v zv : FV binary64) (1 / 400) (84 / 10 ^ 4) := ⟨v, is_fin _ _, h1, h2⟩
  have c0 := (bd_i (f := binary64) 2 (by norm_num)).sub 1 1 0 (bd_i (f := binary64) 1 (by norm_num)) (by norm_num) (by norm_num) (by norm_num) (by norm_num) (by norm_num)
  have c1 := c0.div 119 400 0 bv (by norm_num) (by norm_num) (by norm_num) (by norm_num) (by norm_num) (by norm_num) (by norm_num)
  have c2 := c1.sub 118 399 0 (bd_i (f := binary64) 1 (by norm_num)) (by norm_num) (by norm_num) (by norm_num) (by norm_num) (by norm_num)
  have c3 := bD.mul 0 42000 20 c2 (by norm_num) (by norm_num) (by norm_num) (by norm_num) (by norm_num) (by norm_num) (by norm_num)
  have c4 := c3.div 0 600 0 bD (by norm_num) (by norm_num) (by norm_num) (by norm_num) (by norm_num) (by norm_num) (by norm_num)
  obtain ⟨r, ir, r1, r2⟩ := R
  obtain ⟨c, ic, c1', c2'⟩ := c4
  norm_num at r1 r2 c1' c2'
  obtain ⟨g, ig, g1, g2⟩ := halley_is (f := binary64) rfl ir ic (by rw [abs_le]; constructor <;> linarith) (by rw [abs_le]; constructor <;> linarith)
  have g0 : 0 < g := by linarith
  have hG : ((10630000:ℤ):ℚ) / 2 ^ 30 ≤ r / g := by rw [le_div_iff₀ g0]; norm_num; nlinarith
  have hG2 : r / g ≤ ((4:ℤ):ℚ) / 2 ^ 0 := by rw [div_le_iff₀ g0]; norm_num; linarith
  have bG := le_rnd_of_rep (f := binary64) (rep_dy _ 10630000 30 (by norm_num) (by norm_num)) hG
  have bG2 := rnd_le_of_rep (f := binary64) (rep_dy _ 4 0 (by norm_num) (by norm_num)) hG2
  generalize rnd binary64 (r / g) = G at *
  norm_num at bG bG2
  have iv := (is_fin (f := binary64) v zv).sub ig (nov (by rw [abs_le]; norm_num; constructor <;> linarith))
  have hn := rnd_le_of_rep (f := binary64) (q := v - G) (rep_dy _ (-1) 20 (by norm_num) (by norm_num)) (by norm_num; linarith)
  exact (iv.lt_iff (is_i (f := binary64) (n := 0) (by norm_num))).2 (by norm_num at hn ⊢; linarith)

/-- one step of the iteration -/
theorem ie_recur {a p lg v d1 q d' : FV f} (n : ℕ) (h1 : incomplete_gamma_inv_ratio_val_1 v a p d1 = .ok q) (h2 : incomplete_gamma_inv_deriv_1 v a lg = .ok d') :
    incomplete_gamma_inv_recur a p lg (n + 1) v d1 = incomplete_gamma_inv_recur a p lg n (v - halley q (incomplete_gamma_inv_ratio_val_2 v a d1)) d' := by
  rw [incomplete_gamma_inv_recur, h1, h2]; rfl

theorem ie_recur_error {a p lg v d1 q : FV f} (n : ℕ) (h1 : incomplete_gamma_inv_ratio_val_1 v a p d1 = .ok q) (h2 : incomplete_gamma_inv_deriv_1 v a lg = .error .castRange) :
    incomplete_gamma_inv_recur a p lg (n + 1) v d1 = .error .castRange := by
  rw [incomplete_gamma_inv_recur, h1, h2]; rfl

theorem ie_ok_bind {α β : Type} (x : α) (k : α → Res β) : ((Except.ok x : Res α) >>= k) = k x := rfl

theorem ie_top {a p iv lg d1 : FV f} (h0 : any_nan a p = false) (h1 : ¬ (limMin : FV f) > p) (h2 : ¬ p > i 1) (h3 : ¬ (limMin : FV f) > fabs (i 1 - p))
    (h4 : ¬ (limMin : FV f) > a) (h5 : incomplete_gamma_inv_initial_val a p = .ok iv) (h6 : lgamma a = .ok lg) (h7 : incomplete_gamma_inv_deriv_1 iv a lg = .ok d1) :
    incomplete_gamma_inv a p = incomplete_gamma_inv_recur a p lg INCML_GAMMA_INV_MAX_ITER iv d1 := by
  unfold incomplete_gamma_inv incomplete_gamma_inv_check incomplete_gamma_inv_begin
  generalize INCML_GAMMA_INV_MAX_ITER = N
  rw [if_neg (by rw [h0]; simp), if_neg h1, if_neg h2, if_neg h3, if_neg h4, h5, h6]
  rw [ie_ok_bind, ie_ok_bind, h7, ie_ok_bind]

end Gcem.Props
