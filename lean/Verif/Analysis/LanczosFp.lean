import Verif.Analysis.Lanczos
import Verif.Analysis.Consts
import Mathlib.Analysis.Real.Pi.Bounds
import Verif.Fp.Rel
import Verif.Model.Special
import Verif.Props.Log2Acc

/-!
# Rounding error of the Lanczos sum, and slopes of `log Γ`
-/

namespace Gcem
open FV
variable {f : Fmt}

namespace Lan

/-! ## Bounds for the sum -/

theorem lanC_le {z : ℝ} (hz : 0 < z) : lanC ≤ lanA z := by
  have h : (padd PP (pscale (-coef0) QQ)).all (0 ≤ ·) = true := by decide +kernel
  have h1 := ev_nonneg h hz.le
  rw [ev_padd, ev_pscale] at h1
  have hq := QQ_pos hz
  rw [(lanA_eq hz).2, le_div_iff₀ (by positivity), le_div_iff₀ hq]
  have e : lanC * 10 ^ 25 = (coef0 : ℝ) := by rw [lanC, coef0]; push_cast; norm_num
  rw [e]; push_cast at h1; linarith

theorem lanA_le {z : ℝ} (hz : 0 < z) : lanA z ≤ 1 + 58 / z := by
  have h : (padd (pmul [58 * 10 ^ 25, 10 ^ 25] QQ) (pscale (-1) (pmul [0, 1] PP))).all (0 ≤ ·) = true := by
    decide +kernel
  have h1 := ev_nonneg h hz.le
  simp only [ev_padd, ev_pscale, ev_pmul, ev] at h1
  have hq := QQ_pos hz
  have e : 1 + 58 / z = (z + 58) / z := by field_simp
  rw [(lanA_eq hz).2, div_div, e, div_le_div_iff₀ (by positivity) hz]
  push_cast at h1
  linarith

theorem abs_log_lanA {z : ℝ} (hz : 0 < z) : |Real.log (lanA z)| ≤ Real.log (1 + 58 / z) + 1 / 10 ^ 9 := by
  have hc : 0 < lanC := by rw [lanC]; norm_num
  have h1 := Real.log_le_log hc (lanC_le hz)
  have h2 := Real.log_le_log (lanA_pos hz) (lanA_le hz)
  have h3 := log_lanC.1
  have h4 : 0 ≤ Real.log (1 + 58 / z) := Real.log_nonneg (by have : 0 < 58 / z := by positivity
                                                             linarith)
  rw [abs_le]
  constructor
  · have : -(1 / 10 ^ 9 : ℝ) ≤ -(3 / 10 ^ 15) := by norm_num
    linarith
  · have : (0:ℝ) < 1 / 10 ^ 9 := by norm_num
    linarith

/-! ## Slopes of `log Γ` -/

theorem lg_slope {a b c : ℝ} (ha : 0 < a) (h1 : a < b) (h2 : b < c) :
    (Real.log (Real.Gamma b) - Real.log (Real.Gamma a)) / (b - a) ≤
      (Real.log (Real.Gamma c) - Real.log (Real.Gamma b)) / (c - b) :=
  (convexOn_iff_slope_mono_adjacent.1 Real.convexOn_log_Gamma).2 (x := a) (y := b) (z := c) ha
    (show 0 < c by linarith) h1 h2

theorem lg_up {a b : ℝ} (ha : 2 ≤ a) (h : a ≤ b) :
    0 ≤ Real.log (Real.Gamma b) - Real.log (Real.Gamma a) ∧
    Real.log (Real.Gamma b) - Real.log (Real.Gamma a) ≤ (b - a) * Real.log b := by
  rcases h.eq_or_lt with rfl | h
  · simp
  constructor
  · have := Real.Gamma_strictMonoOn_Ici (show a ∈ Set.Ici (2:ℝ) from ha) (show b ∈ Set.Ici (2:ℝ) by exact ha.trans h.le) h
    have := Real.log_le_log (Real.Gamma_pos_of_pos (by linarith)) this.le
    linarith
  · have h1 := lg_slope (show 0 < a by linarith) h (show b < b + 1 by linarith)
    rw [logGamma_step (show 0 < b by linarith), add_sub_cancel_left, add_sub_cancel_left, div_one,
      div_le_iff₀ (by linarith)] at h1
    linarith

theorem lg_half : -(115 / 200) ≤ Real.log (Real.Gamma 1) - Real.log (Real.Gamma (1 / 2)) := by
  rw [Real.Gamma_one, Real.log_one, Real.Gamma_one_half_eq, Real.log_sqrt Real.pi_pos.le]
  have h : Real.log Real.pi ≤ 115 / 100 := by
    rw [Real.log_le_iff_le_exp Real.pi_pos]
    have h1 := Real.pi_lt_d4
    have h2 := Real.quadratic_le_exp_of_nonneg (x := 115 / 100 / 8) (by norm_num)
    have e : Real.exp (115 / 100) = Real.exp (115 / 100 / 8) ^ 8 := by rw [← Real.exp_nat_mul]; norm_num
    rw [e]
    refine le_trans ?_ (pow_le_pow_left₀ (by norm_num) h2 8)
    norm_num
    linarith
  linarith

theorem lg_down {a b : ℝ} (ha : 0 < a) (h : a ≤ b) (hb : b ≤ 1) :
    0 ≤ Real.log (Real.Gamma a) - Real.log (Real.Gamma b) ∧
    Real.log (Real.Gamma a) - Real.log (Real.Gamma b) ≤ (b - a) * (1 / a + 115 / 100) := by
  rcases h.eq_or_lt with rfl | h
  · simp
  have hb0 : 0 < b := by linarith
  constructor
  · have := Real.Gamma_strictAntiOn_Ioc (show a ∈ Set.Ioc (0:ℝ) 1 from ⟨ha, by linarith⟩)
      (show b ∈ Set.Ioc (0:ℝ) 1 from ⟨hb0, hb⟩) h
    have := Real.log_le_log (Real.Gamma_pos_of_pos hb0) this.le
    linarith
  · have s1 := lg_slope (show (0:ℝ) < 1 / 2 by norm_num) (show (1 / 2 : ℝ) < 1 by norm_num) (show 1 < a + 1 by linarith)
    have s2 := lg_slope (show (0:ℝ) < 1 by norm_num) (show 1 < a + 1 by linarith) (show a + 1 < b + 1 by linarith)
    have h3 := lg_half
    have s3 := s1.trans s2
    rw [div_le_div_iff₀ (by norm_num) (by linarith), logGamma_step ha, logGamma_step hb0] at s3
    have h4 : Real.log b - Real.log a ≤ (b - a) / a := by
      rw [← Real.log_div hb0.ne' ha.ne']
      have := Real.log_le_sub_one_of_pos (show 0 < b / a by positivity)
      refine this.trans (le_of_eq ?_)
      field_simp
    have h5 : (b - a) * (1 / a + 115 / 100) = (b - a) / a + 115 / 100 * (b - a) := by ring
    rw [h5]
    have h6 := mul_le_mul_of_nonneg_right h3 (show 0 ≤ b + 1 - (a + 1) by linarith)
    linarith

end Lan

/-! ## The sum in floating point -/

/-- the Lanczos sum over the rational numbers -/
def lanAq (y : ℚ) : ℚ :=
  0.99999999999999709182 + 57.156235665862923517 / (y + 1)
    - 59.597960355475491248 / (y + 2) + 14.136097974741747174 / (y + 3)
    - 0.49191381609762019978 / (y + 4) + 0.33994649984811888699e-4 / (y + 5)
    + 0.46523628927048575665e-4 / (y + 6) - 0.98374475304879564677e-4 / (y + 7)
    + 0.15808870322491248884e-3 / (y + 8) - 0.21026444172410488319e-3 / (y + 9)
    + 0.21743961811521264320e-3 / (y + 10) - 0.16431810653676389022e-3 / (y + 11)
    + 0.84418223983852743293e-4 / (y + 12) - 0.26190838401581408670e-4 / (y + 13)
    + 0.36899182659531622704e-5 / (y + 14)

theorem lanAq_eq (y : ℚ) : ((lanAq y : ℚ) : ℝ) = Lan.lanA (y + 1) := by
  rw [Lan.lanA, lanAq]
  simp only [Lan.coef, Lan.rsum, Lan.coef0]
  push_cast
  ring

/-- a literal in `long double` -/
theorem L_rl {g : Fmt} (hg : g.ldbl = g) {q : ℚ} (h1 : 1 / 2 ^ 100 ≤ q) (h2 : q ≤ 2 ^ 100) : Rl (L q : FV g) q 1 := by
  have q0 : 0 < q := lt_of_lt_of_le (by positivity) h1
  have e : (L q : FV g) = mk g (rnd g q) false := by unfold L; rw [hg]
  have hr : rnd g (rnd g q) = rnd g q := rep_rnd g q
  obtain ⟨o, b⟩ := rl_round (f := g) (r := q) (q := q) (c := 0) (le_trans (by norm_num) h1) (h2.trans (by norm_num)) (by norm_num)
    (by simp)
  refine ⟨q0, by norm_num, rnd g q, ?_, by simpa using b⟩
  rw [e]
  have := is_mk (f := g) (q := rnd g q) (zs := false) (by rw [hr]; exact o)
  rwa [hr] at this

/-- one summand -/
theorem lan_term {g : Fmt} (hg : g.ldbl = g) {v : FV g} {y c : ℚ} (hv : Is v y) (hr : Rep g y) (n : ℕ) (hn1 : 1 ≤ n) (hn : n ≤ 14)
    (h1 : 1 / 2 ^ 70 ≤ y + 1) (h2 : y ≤ 2 ^ 90) (hc1 : 1 / 2 ^ 20 ≤ c) (hc2 : c ≤ 100) :
    0 < c / (y + n) ∧ c / (y + n) ≤ 2 ^ 80 ∧ Ap (L c / (v + i n) : FV g) (c / (y + n)) (3001 / 1000 * (c / (y + n))) := by
  have hn' : (1:ℚ) ≤ n := by exact_mod_cast hn1
  have hn'' : (n:ℚ) ≤ 14 := by exact_mod_cast hn
  have hp : 1 / 2 ^ 70 ≤ y + n := by linarith
  have hp0 : 0 < y + n := lt_of_lt_of_le (by positivity) hp
  have hc0 : 0 < c := lt_of_lt_of_le (by positivity) hc1
  have i1 : Is (i n : FV g) n := by
    have := is_i (f := g) (n := (n:ℤ)) (by rw [abs_of_nonneg (by positivity)]; omega)
    simpa using this
  have a1 := hv.add i1 (nov (by rw [abs_of_pos hp0]; norm_num at h2 ⊢; linarith))
  have rn : Rep g (n : ℚ) := by
    have := rep_int (f := g) (n := (n : ℤ)) (by
      rw [abs_of_nonneg (by positivity)]
      have := two_pow_prec g
      omega)
    simpa using this
  have er := rnd_add_rel hr rn
  have hs : Rl (v + i n : FV g) (y + n) 1 := by
    refine ⟨hp0, by norm_num, _, a1, er.trans ?_⟩
    rw [abs_of_pos hp0]
    have := uro_pos g
    have : uro g ≤ wro g := by unfold wro; linarith
    rw [one_mul]
    exact mul_le_mul_of_nonneg_right this hp0.le
  have hl := L_rl hg (q := c) (le_trans (by norm_num) hc1) (hc2.trans (by norm_num))
  have u1 : c / (y + n) ≤ 2 ^ 80 := by
    rw [div_le_iff₀ hp0]
    have := mul_le_mul_of_nonneg_left hp (show (0:ℚ) ≤ 2 ^ 80 by positivity)
    norm_num at this ⊢
    linarith
  have l1 : 1 / 2 ^ 120 ≤ c / (y + n) := by
    rw [le_div_iff₀ hp0]
    have h3 : y + n ≤ 2 ^ 91 := by norm_num at h2 ⊢; linarith
    have := mul_le_mul_of_nonneg_left h3 (show (0:ℚ) ≤ 1 / 2 ^ 120 by positivity)
    refine this.trans (le_trans ?_ hc1)
    norm_num
  have hd := Rl.div hl hs l1 (u1.trans (by norm_num)) (c'' := 3001 / 1000) (by norm_num) (by norm_num)
  obtain ⟨p0, -, a, ia, ea⟩ := hd
  refine ⟨p0, u1, a, ia, ea.trans (le_of_eq (by ring))⟩

theorem lan_add {g : Fmt} {v w : FV g} {p c t B : ℚ} (hv : Ap v p c) (hw : 0 < t ∧ t ≤ 2 ^ 80 ∧ Ap w t (3001 / 1000 * t))
    (h1 : |p + t| ≤ B) (h2 : 1 / 10 ≤ B) (h3 : B ≤ 2 ^ 81) (hc : c + 4 * t ≤ 1000 * B) :
    Ap (v + w) (p + t) (c + 3001 / 1000 * t + 10001 / 10000 * B) := by
  obtain ⟨t0, -, a⟩ := hw
  norm_num at h3
  exact hv.add a h1 (by linarith) (by norm_num; linarith) (by norm_num; linarith) (by norm_num; linarith)

theorem lan_sub {g : Fmt} {v w : FV g} {p c t B : ℚ} (hv : Ap v p c) (hw : 0 < t ∧ t ≤ 2 ^ 80 ∧ Ap w t (3001 / 1000 * t))
    (h1 : |p - t| ≤ B) (h2 : 1 / 10 ≤ B) (h3 : B ≤ 2 ^ 81) (hc : c + 4 * t ≤ 1000 * B) :
    Ap (v - w) (p - t) (c + 3001 / 1000 * t + 10001 / 10000 * B) := by
  obtain ⟨t0, -, a⟩ := hw
  norm_num at h3
  exact hv.sub a h1 (by linarith) (by norm_num; linarith) (by norm_num; linarith) (by norm_num; linarith)

/-- the first four summands -/
theorem lan_head {g : Fmt} {v0 v1 v2 v3 v4 : FV g} {c0 t1 t2 t3 t4 : ℚ} (h0 : Ap v0 c0 1) (hc0 : 999 / 1000 ≤ c0) (hc1 : c0 ≤ 1)
    (p1 : 0 < t1 ∧ t1 ≤ 2 ^ 80 ∧ Ap v1 t1 (3001 / 1000 * t1)) (p2 : 0 < t2 ∧ t2 ≤ 2 ^ 80 ∧ Ap v2 t2 (3001 / 1000 * t2))
    (p3 : 0 < t3 ∧ t3 ≤ 2 ^ 80 ∧ Ap v3 t3 (3001 / 1000 * t3)) (p4 : 0 < t4 ∧ t4 ≤ 2 ^ 80 ∧ Ap v4 t4 (3001 / 1000 * t4))
    (b3 : t3 ≤ 8) (b4 : t4 ≤ 17 / 100) (hpos : 9 / 10 ≤ c0 + t1 - t2) (hm : c0 + t1 ≤ 50 * (c0 + t1 - t2)) :
    Ap (v0 + v1 - v2 + v3 - v4) (c0 + t1 - t2 + t3 - t4)
      (1 + 3001 / 1000 * (t1 + t2 + t3 + t4) + 10001 / 10000 * (2 * (c0 + t1) + 2 * (c0 + t1 - t2 + t3))) := by
  obtain ⟨z1, m1⟩ := id p1
  obtain ⟨z2, m2⟩ := id p2
  obtain ⟨z3, m3⟩ := id p3
  obtain ⟨z4, m4⟩ := id p4
  have m1 := m1.1
  norm_num at m1
  have s1 := lan_add h0 p1 (B := c0 + t1) (by rw [abs_of_pos (by linarith)]) (by linarith) (by norm_num; linarith) (by linarith)
  have s2 := lan_sub s1 p2 (B := c0 + t1) (by rw [abs_le]; constructor <;> linarith) (by linarith) (by norm_num; linarith) (by linarith)
  have s3 := lan_add s2 p3 (B := c0 + t1 - t2 + t3) (by rw [abs_le]; constructor <;> linarith) (by linarith) (by norm_num; linarith) (by linarith)
  have s4 := lan_sub s3 p4 (B := c0 + t1 - t2 + t3) (by rw [abs_le]; constructor <;> linarith) (by linarith) (by norm_num; linarith) (by linarith)
  exact s4.mono (by linarith)

/-- the last ten summands -/
theorem lan_tail {g : Fmt} {v : FV g} {p c B : ℚ} (h : Ap v p c) (hB : p + 1 / 1000 ≤ B) (hp : 1 / 5 ≤ p) (h3 : B ≤ 2 ^ 81)
    (hc : c + 20 * B + 1 ≤ 1000 * B)
    {v5 v6 v7 v8 v9 v10 v11 v12 v13 v14 : FV g} {t5 t6 t7 t8 t9 t10 t11 t12 t13 t14 : ℚ}
    (p5 : 0 < t5 ∧ t5 ≤ 2 ^ 80 ∧ Ap v5 t5 (3001 / 1000 * t5))
    (p6 : 0 < t6 ∧ t6 ≤ 2 ^ 80 ∧ Ap v6 t6 (3001 / 1000 * t6))
    (p7 : 0 < t7 ∧ t7 ≤ 2 ^ 80 ∧ Ap v7 t7 (3001 / 1000 * t7))
    (p8 : 0 < t8 ∧ t8 ≤ 2 ^ 80 ∧ Ap v8 t8 (3001 / 1000 * t8))
    (p9 : 0 < t9 ∧ t9 ≤ 2 ^ 80 ∧ Ap v9 t9 (3001 / 1000 * t9))
    (p10 : 0 < t10 ∧ t10 ≤ 2 ^ 80 ∧ Ap v10 t10 (3001 / 1000 * t10))
    (p11 : 0 < t11 ∧ t11 ≤ 2 ^ 80 ∧ Ap v11 t11 (3001 / 1000 * t11))
    (p12 : 0 < t12 ∧ t12 ≤ 2 ^ 80 ∧ Ap v12 t12 (3001 / 1000 * t12))
    (p13 : 0 < t13 ∧ t13 ≤ 2 ^ 80 ∧ Ap v13 t13 (3001 / 1000 * t13))
    (p14 : 0 < t14 ∧ t14 ≤ 2 ^ 80 ∧ Ap v14 t14 (3001 / 1000 * t14))
    (b5 : t5 + t6 + t7 + t8 + t9 + t10 + t11 + t12 + t13 + t14 ≤ 1 / 1000) :
    Ap (v + v5 + v6 - v7 + v8 - v9 + v10 - v11 + v12 - v13 + v14) (p + t5 + t6 - t7 + t8 - t9 + t10 - t11 + t12 - t13 + t14) (c + 3001 / 1000 * (t5 + t6 + t7 + t8 + t9 + t10 + t11 + t12 + t13 + t14) + 10001 / 1000 * B) := by
  have z5 := p5.1
  have z6 := p6.1
  have z7 := p7.1
  have z8 := p8.1
  have z9 := p9.1
  have z10 := p10.1
  have z11 := p11.1
  have z12 := p12.1
  have z13 := p13.1
  have z14 := p14.1
  have s5 := lan_add h p5 (B := B) (by rw [abs_le]; constructor <;> linarith) (by linarith) h3 (by linarith)
  have s6 := lan_add s5 p6 (B := B) (by rw [abs_le]; constructor <;> linarith) (by linarith) h3 (by linarith)
  have s7 := lan_sub s6 p7 (B := B) (by rw [abs_le]; constructor <;> linarith) (by linarith) h3 (by linarith)
  have s8 := lan_add s7 p8 (B := B) (by rw [abs_le]; constructor <;> linarith) (by linarith) h3 (by linarith)
  have s9 := lan_sub s8 p9 (B := B) (by rw [abs_le]; constructor <;> linarith) (by linarith) h3 (by linarith)
  have s10 := lan_add s9 p10 (B := B) (by rw [abs_le]; constructor <;> linarith) (by linarith) h3 (by linarith)
  have s11 := lan_sub s10 p11 (B := B) (by rw [abs_le]; constructor <;> linarith) (by linarith) h3 (by linarith)
  have s12 := lan_add s11 p12 (B := B) (by rw [abs_le]; constructor <;> linarith) (by linarith) h3 (by linarith)
  have s13 := lan_sub s12 p13 (B := B) (by rw [abs_le]; constructor <;> linarith) (by linarith) h3 (by linarith)
  have s14 := lan_add s13 p14 (B := B) (by rw [abs_le]; constructor <;> linarith) (by linarith) h3 (by linarith)
  exact s14.mono (by linarith)

theorem lan_poly {y : ℚ} (h : 0 < y + 1) :
    0 ≤ 26 * (0.99999999999999709182 : ℚ) + 23 * (57.156235665862923517 / (y + 1)) - 31 * (59.597960355475491248 / (y + 2))
      + 25 * (14.136097974741747174 / (y + 3)) - 43 * (0.49191381609762019978 / (y + 4)) - 1 / 2 := by
  obtain ⟨z, rfl⟩ : ∃ z, y = z - 1 := ⟨y + 1, by ring⟩
  have hz : 0 < z := by linarith
  have e2 : z - 1 + 2 = z + 1 := by ring
  have e3 : z - 1 + 3 = z + 2 := by ring
  have e4 : z - 1 + 4 = z + 3 := by ring
  rw [sub_add_cancel, e2, e3, e4]
  have key : 26 * (0.99999999999999709182 : ℚ) + 23 * (57.156235665862923517 / z) - 31 * (59.597960355475491248 / (z + 1))
      + 25 * (14.136097974741747174 / (z + 2)) - 43 * (0.49191381609762019978 / (z + 3)) - 1 / 2 =
      ((26 * (0.99999999999999709182 : ℚ) - 1 / 2) * (z * (z + 1) * (z + 2) * (z + 3))
        + 23 * 57.156235665862923517 * ((z + 1) * (z + 2) * (z + 3)) - 31 * 59.597960355475491248 * (z * (z + 2) * (z + 3))
        + 25 * 14.136097974741747174 * (z * (z + 1) * (z + 3)) - 43 * 0.49191381609762019978 * (z * (z + 1) * (z + 2)))
        / (z * (z + 1) * (z + 2) * (z + 3)) := by
    field_simp
    ring
  rw [key]
  refine div_nonneg ?_ (by positivity)
  have h3 : 0 ≤ z * z * (z - 1) ^ 2 := by positivity
  have h2 : 0 < z * z := by positivity
  have h4 : 0 < z * z * z := by positivity
  have h5 : 0 < z * z * (z * z) := by positivity
  ring_nf
  ring_nf at h3 h2 h4 h5
  norm_num only at *
  nlinarith

theorem lan_pos {y : ℚ} (h : 0 < y + 1) :
    9 / 10 ≤ (0.99999999999999709182 : ℚ) + 57.156235665862923517 / (y + 1) - 59.597960355475491248 / (y + 2) := by
  obtain ⟨z, rfl⟩ : ∃ z, y = z - 1 := ⟨y + 1, by ring⟩
  have hz : 0 < z := by linarith
  have e2 : z - 1 + 2 = z + 1 := by ring
  rw [sub_add_cancel, e2, ← sub_nonneg]
  have key : (0.99999999999999709182 : ℚ) + 57.156235665862923517 / z - 59.597960355475491248 / (z + 1) - 9 / 10 =
      ((0.99999999999999709182 - 9 / 10) * (z * (z + 1)) + 57.156235665862923517 * (z + 1) - 59.597960355475491248 * z) /
        (z * (z + 1)) := by
    field_simp
    ring
  rw [key]
  refine div_nonneg ?_ (by positivity)
  nlinarith [sq_nonneg (z - 12)]

theorem lan_mag {y : ℚ} (h : 0 < y + 1) :
    (0.99999999999999709182 : ℚ) + 57.156235665862923517 / (y + 1) ≤
      50 * (0.99999999999999709182 + 57.156235665862923517 / (y + 1) - 59.597960355475491248 / (y + 2)) := by
  obtain ⟨z, rfl⟩ : ∃ z, y = z - 1 := ⟨y + 1, by ring⟩
  have hz : 0 < z := by linarith
  have e2 : z - 1 + 2 = z + 1 := by ring
  rw [sub_add_cancel, e2, ← sub_nonneg]
  have key : 50 * ((0.99999999999999709182 : ℚ) + 57.156235665862923517 / z - 59.597960355475491248 / (z + 1)) -
      (0.99999999999999709182 + 57.156235665862923517 / z) =
      (49 * (0.99999999999999709182 * (z * (z + 1)) + 57.156235665862923517 * (z + 1)) - 50 * 59.597960355475491248 * z) /
        (z * (z + 1)) := by
    field_simp
    ring
  rw [key]
  refine div_nonneg ?_ (by positivity)
  nlinarith [sq_nonneg (z - 2)]

theorem lan_small {y c : ℚ} {n : ℕ} (h : 0 < y + 1) (hn : 4 ≤ n) (hc : 0 ≤ c) : c / (y + n) ≤ c / 3 := by
  have : (4:ℚ) ≤ n := by exact_mod_cast hn
  exact div_le_div_of_nonneg_left hc (by norm_num) (by linarith)

/-- the Lanczos sum of lgamma.hpp:54-65 has relative error at most 41 `long double` roundoffs -/
theorem coef_ap {g : Fmt} (hg : g.ldbl = g) {v : FV g} {y : ℚ} (hv : Is v y) (hr : Rep g y)
    (h1 : 1 / 2 ^ 70 ≤ y + 1) (h2 : y ≤ 2 ^ 90) : Ap (lgamma_coef_term v) (lanAq y) (41 * lanAq y) := by
  have hy : 0 < y + 1 := lt_of_lt_of_le (by positivity) h1
  have T := fun (c : ℚ) (n : ℕ) hn1 hn hc1 hc2 => lan_term hg (c := c) hv hr n hn1 hn h1 h2 hc1 hc2
  obtain ⟨-, -, a0, i0, e0⟩ := L_rl hg (q := 0.99999999999999709182) (by norm_num) (by norm_num)
  have A0 : Ap (L 0.99999999999999709182 : FV g) 0.99999999999999709182 1 := by
    refine ⟨a0, i0, e0.trans ?_⟩
    have := wro_pos g
    rw [one_mul]
    refine mul_le_of_le_one_right this.le (by norm_num)
  have S := fun (c : ℚ) (n : ℕ) hn hc => lan_small (y := y) (c := c) (n := n) hy hn hc
  have hp := lan_pos hy
  have hb := lan_poly hy
  have T1 := T 57.156235665862923517 1 (by norm_num) (by norm_num) (by norm_num) (by norm_num)
  have T2 := T 59.597960355475491248 2 (by norm_num) (by norm_num) (by norm_num) (by norm_num)
  have T3 := T 14.136097974741747174 3 (by norm_num) (by norm_num) (by norm_num) (by norm_num)
  have T4 := T 0.49191381609762019978 4 (by norm_num) (by norm_num) (by norm_num) (by norm_num)
  have S4 := S 0.49191381609762019978 4 (by norm_num) (by norm_num)
  have T5 := T 0.33994649984811888699e-4 5 (by norm_num) (by norm_num) (by norm_num) (by norm_num)
  have S5 := S 0.33994649984811888699e-4 5 (by norm_num) (by norm_num)
  have T6 := T 0.46523628927048575665e-4 6 (by norm_num) (by norm_num) (by norm_num) (by norm_num)
  have S6 := S 0.46523628927048575665e-4 6 (by norm_num) (by norm_num)
  have T7 := T 0.98374475304879564677e-4 7 (by norm_num) (by norm_num) (by norm_num) (by norm_num)
  have S7 := S 0.98374475304879564677e-4 7 (by norm_num) (by norm_num)
  have T8 := T 0.15808870322491248884e-3 8 (by norm_num) (by norm_num) (by norm_num) (by norm_num)
  have S8 := S 0.15808870322491248884e-3 8 (by norm_num) (by norm_num)
  have T9 := T 0.21026444172410488319e-3 9 (by norm_num) (by norm_num) (by norm_num) (by norm_num)
  have S9 := S 0.21026444172410488319e-3 9 (by norm_num) (by norm_num)
  have T10 := T 0.21743961811521264320e-3 10 (by norm_num) (by norm_num) (by norm_num) (by norm_num)
  have S10 := S 0.21743961811521264320e-3 10 (by norm_num) (by norm_num)
  have T11 := T 0.16431810653676389022e-3 11 (by norm_num) (by norm_num) (by norm_num) (by norm_num)
  have S11 := S 0.16431810653676389022e-3 11 (by norm_num) (by norm_num)
  have T12 := T 0.84418223983852743293e-4 12 (by norm_num) (by norm_num) (by norm_num) (by norm_num)
  have S12 := S 0.84418223983852743293e-4 12 (by norm_num) (by norm_num)
  have T13 := T 0.26190838401581408670e-4 13 (by norm_num) (by norm_num) (by norm_num) (by norm_num)
  have S13 := S 0.26190838401581408670e-4 13 (by norm_num) (by norm_num)
  have T14 := T 0.36899182659531622704e-5 14 (by norm_num) (by norm_num) (by norm_num) (by norm_num)
  have S14 := S 0.36899182659531622704e-5 14 (by norm_num) (by norm_num)
  push_cast at T1 T2 T3 T4 T5 T6 T7 T8 T9 T10 T11 T12 T13 T14 S4 S5 S6 S7 S8 S9 S10 S11 S12 S13 S14
  have hm : (0.99999999999999709182 : ℚ) + 57.156235665862923517 / (y + 1) ≤
      50 * (0.99999999999999709182 + 57.156235665862923517 / (y + 1) - 59.597960355475491248 / (y + 2)) := lan_mag hy
  have S3 : (14.136097974741747174 : ℚ) / (y + 3) ≤ 8 := by
    rw [div_le_iff₀ (by linarith)]; linarith
  have t1 := T1.2.1
  have z2 := T2.1
  have z3 := T3.1
  have H := lan_head A0 (by norm_num) (by norm_num) T1 T2 T3 T4 S3 (S4.trans (by norm_num)) hp hm
  have b5 : 0.33994649984811888699e-4 / (y + 5) + 0.46523628927048575665e-4 / (y + 6) + 0.98374475304879564677e-4 / (y + 7) + 0.15808870322491248884e-3 / (y + 8) + 0.21026444172410488319e-3 / (y + 9) + 0.21743961811521264320e-3 / (y + 10) + 0.16431810653676389022e-3 / (y + 11) + 0.84418223983852743293e-4 / (y + 12) + 0.26190838401581408670e-4 / (y + 13) + 0.36899182659531622704e-5 / (y + 14) ≤ 1 / 1000 := by
    norm_num at S5 S6 S7 S8 S9 S10 S11 S12 S13 S14 ⊢
    linarith
  norm_num at t1
  have F := lan_tail H (B := 0.99999999999999709182 + 57.156235665862923517 / (y + 1) - 59.597960355475491248 / (y + 2)
    + 14.136097974741747174 / (y + 3) + 1 / 1000) (by have := T4.1; linarith)
    (by have : (0.49191381609762019978:ℚ) / 3 ≤ 17 / 100 := by norm_num
        linarith) (by norm_num; linarith) (by
      have : (0.49191381609762019978:ℚ) / 3 ≤ 17 / 100 := by norm_num
      linarith) T5 T6 T7 T8 T9 T10 T11 T12 T13 T14 b5
  refine F.mono ?_
  rw [lanAq]
  have y5 := T5.1
  have y6 := T6.1
  have y7 := T7.1
  have y8 := T8.1
  have y9 := T9.1
  have y10 := T10.1
  have y11 := T11.1
  have y12 := T12.1
  have y13 := T13.1
  have y14 := T14.1
  clear H F T A0 S T1 T2 T3 T4 T5 T6 T7 T8 T9 T10 T11 T12 T13 T14 S5 S6 S7 S8 S9 S10 S11 S12 S13 S14
  generalize (57.156235665862923517 : ℚ) / (y + 1) = t1 at *
  generalize (59.597960355475491248 : ℚ) / (y + 2) = t2 at *
  generalize (14.136097974741747174 : ℚ) / (y + 3) = t3 at *
  generalize (0.49191381609762019978 : ℚ) / (y + 4) = t4 at *
  generalize (0.33994649984811888699e-4 : ℚ) / (y + 5) = t5 at *
  generalize (0.46523628927048575665e-4 : ℚ) / (y + 6) = t6 at *
  generalize (0.98374475304879564677e-4 : ℚ) / (y + 7) = t7 at *
  generalize (0.15808870322491248884e-3 : ℚ) / (y + 8) = t8 at *
  generalize (0.21026444172410488319e-3 : ℚ) / (y + 9) = t9 at *
  generalize (0.21743961811521264320e-3 : ℚ) / (y + 10) = t10 at *
  generalize (0.16431810653676389022e-3 : ℚ) / (y + 11) = t11 at *
  generalize (0.84418223983852743293e-4 : ℚ) / (y + 12) = t12 at *
  generalize (0.26190838401581408670e-4 : ℚ) / (y + 13) = t13 at *
  generalize (0.36899182659531622704e-5 : ℚ) / (y + 14) = t14 at *
  norm_num at *
  linarith

end Gcem
