import Verif.Props.Order
import Verif.Props.TgammaAcc
import Verif.Props.PowAcc
import Verif.Props.AsinAcc
import Verif.Props.HypAcc
import Verif.Props.IgammaInvTop
import Verif.Props.SmallArg

/-! # C95: functions that must agree with each other -/

namespace Gcem.Props
open FV

variable {f : Fmt}

/-- product of two approximations -/
theorem cr_mul {a b A B ε δ : ℝ} (A0 : 0 ≤ A) (B0 : 0 ≤ B) (e0 : 0 ≤ ε) (e1 : 0 ≤ δ) (ha : |a - A| ≤ ε * A) (hb : |b - B| ≤ δ * B) :
    |a * b - A * B| ≤ (ε + δ + ε * δ) * (A * B) := by
  have e : a * b - A * B = (a - A) * B + A * (b - B) + (a - A) * (b - B) := by ring
  rw [e]
  refine (abs_add_three _ _ _).trans ?_
  rw [abs_mul, abs_mul, abs_mul, abs_of_nonneg B0, abs_of_nonneg A0]
  have h1 : |a - A| * B ≤ ε * A * B := by gcongr
  have h2 : A * |b - B| ≤ A * (δ * B) := by gcongr
  have h3 : |a - A| * |b - B| ≤ ε * A * (δ * B) := by gcongr
  linarith

/-- C95: the recurrence of the Gamma function, `tgamma(x + 1)` against `x * tgamma(x)`, whenever `x + 1` is representable. -/
theorem C95_tgamma_succ (hf : f.exact = false) (x : ℚ) (z w : Bool) (hx : Valid (fin x z : FV f)) (hs : Valid (fin (x + 1) w : FV f))
    (h1 : 1 / 2 ≤ x) (h2 : x + 1 ≤ tgMax f.ty) :
    ∃ g₀ g₁ : ℚ, tgamma (fin x z : FV f) = .ok (fin g₀ false) ∧ tgamma (fin (x + 1) w : FV f) = .ok (fin g₁ false) ∧
      |(g₁:ℝ) - x * g₀| ≤ ((490 + 54 * (x + 1) * Real.log (x + 7)) / 2 ^ f.prec + 38 / 10 ^ 15) * Real.Gamma (x + 1) := by
  obtain ⟨g₀, e₀, -, b₀⟩ := C73_accuracy hf x z hx h1 (by linarith)
  obtain ⟨g₁, e₁, -, b₁⟩ := C73_accuracy hf (x + 1) w hs (by linarith) h2
  refine ⟨g₀, g₁, e₀, e₁, ?_⟩
  have hx1 : (1 / 2 : ℝ) ≤ x := by have := (Rat.cast_le (K := ℝ)).2 h1; push_cast at this; exact this
  have x0 : (0:ℝ) < x := by linarith
  have hG := Real.Gamma_add_one x0.ne'
  have G0 : 0 < Real.Gamma (x + 1) := Real.Gamma_pos_of_pos (by linarith)
  push_cast at b₁
  rw [show (x:ℝ) + 1 + 6 = x + 7 by ring] at b₁
  have k0 : |(x:ℝ) * g₀ - Real.Gamma (x + 1)| ≤ ((245 + 27 * x * Real.log (x + 6)) / 2 ^ f.prec + 19 / 10 ^ 15) * Real.Gamma (x + 1) := by
    rw [hG, ← mul_sub, abs_mul, abs_of_pos x0]
    calc (x:ℝ) * |(g₀:ℝ) - Real.Gamma x| ≤ x * (((245 + 27 * x * Real.log (x + 6)) / 2 ^ f.prec + 19 / 10 ^ 15) * Real.Gamma x) := by gcongr
      _ = _ := by ring
  have hl : 27 * (x:ℝ) * Real.log (x + 6) ≤ 27 * (x + 1) * Real.log (x + 7) := by
    have := Real.log_le_log (show (0:ℝ) < x + 6 by linarith) (show (x:ℝ) + 6 ≤ x + 7 by linarith)
    have := Real.log_nonneg (show (1:ℝ) ≤ x + 6 by linarith)
    gcongr <;> linarith
  have k0' : |(x:ℝ) * g₀ - Real.Gamma (x + 1)| ≤ ((245 + 27 * (x + 1) * Real.log (x + 7)) / 2 ^ f.prec + 19 / 10 ^ 15) * Real.Gamma (x + 1) := by
    refine k0.trans ?_
    gcongr ?_ * _
    gcongr ?_ / _ + _
    linarith
  have a0 := abs_le.1 k0'
  have a1 := abs_le.1 b₁
  have e : ((490 + 54 * ((x:ℝ) + 1) * Real.log (x + 7)) / 2 ^ f.prec + 38 / 10 ^ 15) * Real.Gamma (x + 1) =
      2 * (((245 + 27 * ((x:ℝ) + 1) * Real.log (x + 7)) / 2 ^ f.prec + 19 / 10 ^ 15) * Real.Gamma (x + 1)) := by ring
  rw [e]
  exact abs_le.2 ⟨by linarith, by linarith⟩

/-- C95: `tgamma(n + 1)` against `n!`. -/
theorem C95_tgamma_factorial (hf : f.exact = false) (n : ℕ) (h : n + 1 ≤ tgMax f.ty) :
    ∃ g : ℚ, tgamma (i (n + 1) : FV f) = .ok (fin g false) ∧
      |(g:ℝ) - n.factorial| ≤ ((245 + 27 * (n + 1) * Real.log (n + 7)) / 2 ^ f.prec + 19 / 10 ^ 15) * n.factorial := by
  have hp : n + 1 ≤ 16777216 := by
    have : tgMax f.ty ≤ 16777216 := by rcases f with ⟨⟨⟩, ⟨⟩⟩ <;> decide +kernel
    omega
  obtain ⟨z, e⟩ := is_i (f := f) (n := (n:ℤ) + 1) (by
    rw [abs_of_pos (by positivity)]; exact_mod_cast hp)
  have hv : Valid (fin (((n:ℤ) + 1 : ℤ) : ℚ) z : FV f) := by rw [← e]; exact valid_i _
  push_cast at e hv
  rw [e]
  obtain ⟨g, eg, -, b⟩ := C73_accuracy hf _ z hv (by have : (0:ℚ) ≤ n := by positivity
                                                     linarith) (by exact_mod_cast h)
  refine ⟨g, eg, ?_⟩
  push_cast at b
  rw [Real.Gamma_nat_eq_factorial, show (n:ℝ) + 1 + 6 = n + 7 by ring] at b
  exact b

theorem cr_exp_add {U x y s δ a b c : ℝ} (u0 : 0 < U) (u1 : U ≤ 1 / 10 ^ 7) (hδ : δ = s - (x + y))
    (d1 : |δ| ≤ U * |x + y|) (d2 : |δ| ≤ 1 / 10 ^ 5) (hm : |x| + |y| ≤ 12000) (s1 : |s| ≤ |x| + |y| + 1)
    (ba : |a - Real.exp x| ≤ (104 * U + (|x| + 7) * (1 / 2 ^ 62)) * Real.exp x)
    (bb : |b - Real.exp y| ≤ (104 * U + (|y| + 7) * (1 / 2 ^ 62)) * Real.exp y)
    (bc : |c - Real.exp s| ≤ (104 * U + (|s| + 7) * (1 / 2 ^ 62)) * Real.exp s) :
    |c - a * b| ≤ ((313 + 2 * |x + y|) * U + (|x| + |y| + 7) * (1 / 2 ^ 60)) * Real.exp (x + y) := by
  have x0 := abs_nonneg x
  have y0 := abs_nonneg y
  obtain ⟨T, hT⟩ : ∃ T, T = (|x| + |y| + 7) * (1 / 2 ^ 62) := ⟨_, rfl⟩
  have T0 : 0 ≤ T := by rw [hT]; positivity
  have T1 : T ≤ 1 / 10 ^ 6 := by
    rw [hT]; norm_num; linarith
  obtain ⟨ε, hε⟩ : ∃ ε, ε = 104 * U + 115 / 100 * T := ⟨_, rfl⟩
  have e0 : 0 ≤ ε := by rw [hε]; positivity
  have e1 : ε ≤ 2 / 10 ^ 5 := by
    rw [hε]; norm_num at T1 u1 ⊢; linarith
  have ba' : |a - Real.exp x| ≤ ε * Real.exp x := ba.trans (by
    refine mul_le_mul_of_nonneg_right ?_ (Real.exp_pos _).le
    rw [hε, hT]; norm_num; linarith)
  have bb' : |b - Real.exp y| ≤ ε * Real.exp y := bb.trans (by
    refine mul_le_mul_of_nonneg_right ?_ (Real.exp_pos _).le
    rw [hε, hT]; norm_num; linarith)
  have bc' : |c - Real.exp s| ≤ ε * Real.exp s := bc.trans (by
    refine mul_le_mul_of_nonneg_right ?_ (Real.exp_pos _).le
    rw [hε, hT]; norm_num; linarith)
  have hab := cr_mul (Real.exp_pos _).le (Real.exp_pos _).le e0 e0 ba' bb'
  rw [← Real.exp_add] at hab
  have E0 := Real.exp_pos (x + y)
  have hS : Real.exp s = Real.exp (x + y) * Real.exp δ := by rw [← Real.exp_add, hδ]; ring_nf
  have hd := Real.abs_exp_sub_one_le (x := δ) (d2.trans (by norm_num))
  have hc2 : |c - Real.exp (x + y)| ≤ (ε * (1 + 2 * |δ|) + 2 * |δ|) * Real.exp (x + y) := by
    have k1 := abs_add_le (c - Real.exp s) (Real.exp s - Real.exp (x + y))
    rw [sub_add_sub_cancel] at k1
    have k2 : |Real.exp s - Real.exp (x + y)| ≤ 2 * |δ| * Real.exp (x + y) := by
      rw [hS, show Real.exp (x + y) * Real.exp δ - Real.exp (x + y) = (Real.exp δ - 1) * Real.exp (x + y) by ring, abs_mul, abs_of_pos E0]
      gcongr
    have k3 : Real.exp s ≤ (1 + 2 * |δ|) * Real.exp (x + y) := by
      have := le_abs_self (Real.exp s - Real.exp (x + y))
      linarith
    have k4 : ε * Real.exp s ≤ ε * ((1 + 2 * |δ|) * Real.exp (x + y)) := by gcongr
    linarith
  have k := abs_sub (c - Real.exp (x + y)) (a * b - Real.exp (x + y))
  rw [sub_sub_sub_cancel_right] at k
  refine k.trans ((add_le_add hc2 hab).trans ?_)
  rw [← add_mul]
  refine mul_le_mul_of_nonneg_right ?_ E0.le
  have t4 : (|x| + |y| + 7) * (1 / 2 ^ 60) = 4 * T := by rw [hT]; ring
  rw [t4]
  have c1 : ε * |δ| ≤ ε * (1 / 10 ^ 5) := by gcongr
  have c2 : ε * ε ≤ ε * (2 / 10 ^ 5) := by gcongr
  norm_num at c1 c2 ⊢
  rw [hε] at c1 c2 ⊢
  linarith

private theorem cr_bind_ok {α β : Type} {x : Res α} {k : α → Res β} {b : β} (h : (x >>= k) = .ok b) :
    ∃ a, x = .ok a ∧ k a = .ok b := by
  cases x with
  | error e => cases h
  | ok a => exact ⟨a, rfl, h⟩

theorem cr_tgamma_valid (n : ℕ) : ∀ {x r : FV f}, tgamma_check n x = .ok r → Valid r := by
  induction n with
  | zero => intro x r h; cases h
  | succ n ih =>
    intro x r h
    unfold tgamma_check at h
    split_ifs at h
    · cases h; exact valid_nan
    · cases h; exact valid_i _
    · cases h; exact valid_inf _
    · obtain ⟨w, -, h⟩ := cr_bind_ok h
      split_ifs at h
      · cases h; exact valid_nan
      · obtain ⟨t, -, h⟩ := cr_bind_ok h
        injection h with h
        rw [← h]
        exact valid_div _ _
    · obtain ⟨l, -, h⟩ := cr_bind_ok h
      exact exp_valid h

/-- C95: `round(tgamma(n + 1))` is exactly `n!` up to `n = 7` in `float`, 15 in `double` and 16 in `long double`. -/
theorem C95_tgamma_round (hf : f.exact = false) (n : ℕ) (h : n ≤ match f.ty with | .float => 7 | .double => 15 | .ldouble => 16) :
    (tgamma (i (n + 1) : FV f) >>= round) = .ok (fin n.factorial false) := by
  have hn : n ≤ 16 := by rcases f with ⟨⟨⟩, b⟩ <;> simp at h <;> omega
  obtain ⟨g, e, b⟩ := C95_tgamma_factorial hf n (by rcases f with ⟨⟨⟩, b⟩ <;> simp [tgMax] at h ⊢ <;> omega)
  have l0 : 0 ≤ Real.log (n + 7) := Real.log_nonneg (by have : (0:ℝ) ≤ n := by positivity
                                                        linarith)
  have l2 := Real.log_two_lt_d9
  have key : |(g:ℝ) - n.factorial| < 1 / 2 := by
    refine b.trans_lt ?_
    rcases f with ⟨⟨⟩, b⟩
    · have h7 : n ≤ 7 := h
      have h7r : (n:ℝ) ≤ 7 := by exact_mod_cast h7
      have hF : (n.factorial : ℝ) ≤ 5040 := by exact_mod_cast (Nat.factorial_le h7).trans (by decide)
      have hl : Real.log (n + 7) ≤ 2773 / 1000 := by
        have : Real.log (n + 7) ≤ Real.log (2 ^ 4) := Real.log_le_log (by positivity) (by norm_num; linarith)
        rw [Real.log_pow] at this; push_cast at this; linarith
      have hm : ((n:ℝ) + 1) * Real.log (n + 7) ≤ (7 + 1) * (2773 / 1000) := by gcongr
      refine lt_of_le_of_lt (mul_le_mul (b := (245 + 27 * ((7 + 1) * (2773 / 1000))) / 2 ^ 24 + 19 / 10 ^ 15) (d := 5040) ?_ hF (by positivity) (by norm_num)) (by norm_num)
      rw [mul_assoc]
      show _ / 2 ^ 24 + _ ≤ _
      gcongr
    · have h7 : n ≤ 15 := h
      have h7r : (n:ℝ) ≤ 15 := by exact_mod_cast h7
      have hF : (n.factorial : ℝ) ≤ 1307674368000 := by exact_mod_cast (Nat.factorial_le h7).trans (by decide)
      have hl : Real.log (n + 7) ≤ 3466 / 1000 := by
        have : Real.log (n + 7) ≤ Real.log (2 ^ 5) := Real.log_le_log (by positivity) (by norm_num; linarith)
        rw [Real.log_pow] at this; push_cast at this; linarith
      have hm : ((n:ℝ) + 1) * Real.log (n + 7) ≤ (15 + 1) * (3466 / 1000) := by gcongr
      refine lt_of_le_of_lt (mul_le_mul (b := (245 + 27 * ((15 + 1) * (3466 / 1000))) / 2 ^ 53 + 19 / 10 ^ 15) (d := 1307674368000) ?_ hF (by positivity) (by norm_num)) (by norm_num)
      rw [mul_assoc]
      show _ / 2 ^ 53 + _ ≤ _
      gcongr
    · have h7r : (n:ℝ) ≤ 16 := by exact_mod_cast hn
      have hF : (n.factorial : ℝ) ≤ 20922789888000 := by exact_mod_cast (Nat.factorial_le hn).trans (by decide)
      have hl : Real.log (n + 7) ≤ 3466 / 1000 := by
        have : Real.log (n + 7) ≤ Real.log (2 ^ 5) := Real.log_le_log (by positivity) (by norm_num; linarith)
        rw [Real.log_pow] at this; push_cast at this; linarith
      have hm : ((n:ℝ) + 1) * Real.log (n + 7) ≤ (16 + 1) * (3466 / 1000) := by gcongr
      refine lt_of_le_of_lt (mul_le_mul (b := (245 + 27 * ((16 + 1) * (3466 / 1000))) / 2 ^ 64 + 19 / 10 ^ 15) (d := 20922789888000) ?_ hF (by positivity) (by norm_num)) (by norm_num)
      rw [mul_assoc]
      show _ / 2 ^ 64 + _ ≤ _
      gcongr
  have kq : |g - n.factorial| < 1 / 2 := by
    refine (Rat.cast_lt (K := ℝ)).1 ?_
    push_cast
    exact key
  have k1 := abs_lt.1 kq
  have f1 : (1:ℚ) ≤ n.factorial := by exact_mod_cast n.factorial_pos
  have g0 : 0 < g := by linarith
  obtain ⟨m, hm, er⟩ := C18_round_exact hf g false (cr_tgamma_valid _ e) (Or.inr (by
    rw [abs_of_pos g0]; exact (minNormal_le' f).trans (le_trans (by norm_num) (show 1 / 2 ≤ g by linarith))))
  have : m = (n.factorial : ℤ) := hm.unique ⟨by push_cast; exact kq.le, fun h => by push_cast at h; linarith⟩
  rw [e]
  show round _ = _
  rw [er, if_neg (by simp [g0.le]), this]
  push_cast
  rfl

/-- C95: `exp(x + y)` against `exp(x) * exp(y)`; the sum is the rounded one. -/
theorem C95_exp_add (hf : f.exact = false) (x y : ℚ) (z w : Bool) (hx : Valid (fin x z : FV f)) (hy : Valid (fin y w : FV f))
    (h1 : |x| ≤ expMin f.ty / 4) (h2 : |y| ≤ expMin f.ty / 4) :
    ∃ a b c : ℚ, exp (fin x z : FV f) = .ok (fin a false) ∧ exp (fin y w : FV f) = .ok (fin b false) ∧
      exp (fin x z + fin y w : FV f) = .ok (fin c false) ∧
      |(c:ℝ) - a * b| ≤ ((313 + 2 * |(x + y : ℝ)|) * (1 / 2 ^ f.prec) + (|(x:ℝ)| + |(y:ℝ)| + 7) * (1 / 2 ^ 60)) * Real.exp (x + y) := by
  have u0 := uro_pos_real f
  have u1 := uro7_real f
  have hm := expMin_le f.ty
  have hmu := expMin_uro f
  have h1r : |(x:ℝ)| ≤ expMin f.ty / 4 := by have := (Rat.cast_le (K := ℝ)).2 h1; push_cast at this; exact this
  have h2r : |(y:ℝ)| ≤ expMin f.ty / 4 := by have := (Rat.cast_le (K := ℝ)).2 h2; push_cast at this; exact this
  have hsr : |(x + y : ℝ)| ≤ expMin f.ty / 2 := (abs_add_le _ _).trans (by linarith)
  have hm2 : (expMin f.ty : ℚ) ≤ 12000 ∧ (expMin f.ty : ℚ) ≤ expMax f.ty := by rcases f with ⟨⟨⟩, ⟨⟩⟩ <;> decide +kernel
  have hs : |x + y| ≤ 2 ^ 13 := (abs_add_le _ _).trans (by norm_num; linarith)
  have a1 := abs_le.1 h1
  have a2 := abs_le.1 h2
  have m0 : (0:ℚ) ≤ expMin f.ty := by positivity
  obtain ⟨zs, es⟩ := (is_fin (f := f) x z).add (is_fin y w) (nov (hs.trans (by norm_num)))
  have hv : Valid (fin (rnd f (x + y)) zs : FV f) := by rw [← es]; exact valid_add _ _
  have er := rnd_add_real (f := f) hx.rep hy.rep
  rw [es]
  generalize rnd f (x + y) = s at *
  set δ : ℝ := s - (x + y) with hδ
  have d1 : |δ| ≤ uro f * |(x + y : ℝ)| := by push_cast at er; exact er
  have d2 : |δ| ≤ 1 / 10 ^ 5 := by
    refine d1.trans ((mul_le_mul_of_nonneg_left hsr u0.le).trans ?_)
    norm_num at hmu ⊢
    linarith
  have e86 := expMin_ge f.ty
  have s1 : |(s:ℝ)| ≤ |(x:ℝ)| + |(y:ℝ)| + 1 := by
    have k1 := abs_add_le δ (x + y : ℝ)
    rw [hδ, sub_add_cancel] at k1
    have k2 := abs_add_le (x:ℝ) y
    rw [← hδ] at k1
    norm_num at d2
    linarith
  have s2 : |(s:ℝ)| ≤ expMin f.ty := by linarith
  have s3 := abs_le.1 s2
  obtain ⟨a, ea, -, ba⟩ := C33_accuracy hf x z hx (by linarith) (by linarith [hm2.2])
  obtain ⟨b, eb, -, bb⟩ := C33_accuracy hf y w hy (by linarith) (by linarith [hm2.2])
  obtain ⟨c, ec, -, bc⟩ := C33_accuracy hf s zs hv ((Rat.cast_le (K := ℝ)).1 (by push_cast; linarith)) ((Rat.cast_le (K := ℝ)).1 (by push_cast; linarith [hm.2]))
  refine ⟨a, b, c, ea, eb, ec, ?_⟩
  rw [← uro_eq] at ba bb bc ⊢
  refine cr_exp_add u0 u1 hδ d1 d2 ?_ s1 ?_ ?_ ?_
  · linarith [hm.1]
  · exact ba
  · exact bb
  · exact bc

/-- C95: `log(x * y)` against `log(x) + log(y)`, for `x, y ≥ 1` whose product does not overflow. -/
theorem C95_log_mul (hf : f.exact = false) (x y p : ℚ) (z w v : Bool) (hx : Valid (fin x z : FV f)) (hy : Valid (fin y w : FV f))
    (h1 : 1 ≤ x) (h2 : 1 ≤ y) (hp : (fin x z * fin y w : FV f) = fin p v) :
    ∃ (a b c : ℚ) (za zb zc : Bool), log (fin x z : FV f) = .ok (fin a za) ∧ log (fin y w : FV f) = .ok (fin b zb) ∧
      log (fin x z * fin y w : FV f) = .ok (fin c zc) ∧
      |(c:ℝ) - (a + b)| ≤ (48 + 10 * Real.log (x * y)) * (1 / 2 ^ f.prec) := by
  have u0 := uro_pos_real f
  have u1 := uro7_real f
  have h1r : (1:ℝ) ≤ x := by exact_mod_cast h1
  have h2r : (1:ℝ) ≤ y := by exact_mod_cast h2
  have hxy : 1 ≤ x * y := by nlinarith
  have hxyr : (1:ℝ) ≤ x * y := by exact_mod_cast hxy
  have hpv : Valid (fin p v : FV f) := by rw [← hp]; exact valid_mul _ _
  have ep : p = rnd f (x * y) := by
    rw [fin_mul] at hp
    unfold mk at hp
    simp only [] at hp
    split_ifs at hp
    injection hp with hp
    exact hp.symm
  have p1 : 1 ≤ p := by rw [ep]; exact le_rnd_of_rep rep_one' hxy
  have er := (Rat.cast_le (K := ℝ)).2 (rnd_err_rel (f := f) (q := x * y) (by
    rw [abs_of_pos (by linarith)]; exact (minNormal_le' f).trans (le_trans (by norm_num) hxy)))
  rw [← ep] at er
  push_cast at er
  rw [abs_of_pos (show (0:ℝ) < x * y by linarith)] at er
  have p1r : (1:ℝ) ≤ p := by exact_mod_cast p1
  have lp := gi_log_rel (show (0:ℝ) < x * y by linarith) (u1.trans (by norm_num)) er
  obtain ⟨a, za, ea, ba⟩ := C37_ge_one hf x z hx h1
  obtain ⟨b, zb, eb, bb⟩ := C37_ge_one hf y w hy h2
  obtain ⟨c, zc, ec, bc⟩ := C37_ge_one hf p v hpv p1
  refine ⟨a, b, c, za, zb, zc, ea, eb, by rw [hp]; exact ec, ?_⟩
  rw [← uro_eq] at ba bb bc ⊢
  have hl := Real.log_mul (show (x:ℝ) ≠ 0 by linarith) (show (y:ℝ) ≠ 0 by linarith)
  have k1 := abs_le.1 ba
  have k2 := abs_le.1 bb
  have k3 := abs_le.1 bc
  have k4 := abs_le.1 lp
  have k5 : (15 + 5 * Real.log p) * (uro f:ℝ) ≤ (15 + 5 * (Real.log (x * y) + 2 * uro f)) * uro f := by gcongr; linarith
  have k6 : (uro f:ℝ) * uro f ≤ 1 / 10 ^ 7 * uro f := by gcongr
  rw [hl] at k4 k5 ⊢
  norm_num at k6
  refine abs_le.2 ⟨?_, ?_⟩ <;> nlinarith

/-- C95: `asin(x) + acos(x)` against `π/2`. -/
theorem C95_asin_acos (hf : f.exact = false) (x : ℚ) (z : Bool) (hx : Valid (fin x z : FV f)) (h0 : minNormal f ≤ |x|) (h1 : |x| < 1) :
    ∃ (a c : ℚ) (za zc : Bool), asin (fin x z : FV f) = .ok (fin a za) ∧ acos (fin x z : FV f) = .ok (fin c zc) ∧
      |(a:ℝ) + c - Real.pi / 2| ≤ 95 / 2 ^ f.prec + 8 / 10 ^ 17 + 2 / 2 ^ f.prec * (|(x:ℝ)| ^ 3 / √(1 - (x:ℝ) ^ 2)) := by
  obtain ⟨a, za, ea, ba⟩ := C66_asin hf x z hx h0 h1
  obtain ⟨c, zc, ec, bc⟩ := C66_acos hf x z hx h0 h1
  refine ⟨a, c, za, zc, ea, ec, ?_⟩
  have hu : (0:ℝ) < 1 / 2 ^ f.prec := by positivity
  have hs : Real.arccos (x:ℝ) = Real.pi / 2 - Real.arcsin x := rfl
  have p1 := Real.pi_lt_d6
  have p0 := Real.pi_pos
  have i1 : |Real.arcsin (x:ℝ)| ≤ Real.pi / 2 := abs_le.2 ⟨Real.neg_pi_div_two_le_arcsin _, Real.arcsin_le_pi_div_two _⟩
  have i2 := Real.arccos_le_pi (x:ℝ)
  have i3 := Real.arccos_nonneg (x:ℝ)
  have k1 : (16 / 2 ^ f.prec + 164 / 10 ^ 19) * |Real.arcsin (x:ℝ)| ≤ (16 / 2 ^ f.prec + 164 / 10 ^ 19) * (Real.pi / 2) := by gcongr
  have k2 : (22 / 2 ^ f.prec + 165 / 10 ^ 19) * Real.arccos (x:ℝ) ≤ (22 / 2 ^ f.prec + 165 / 10 ^ 19) * Real.pi := by gcongr
  have k3 : (16 / 2 ^ f.prec + 164 / 10 ^ 19) * (Real.pi / 2) + (22 / 2 ^ f.prec + 165 / 10 ^ 19) * Real.pi ≤ 95 / 2 ^ f.prec + 8 / 10 ^ 17 := by
    have e1 : (16:ℝ) / 2 ^ f.prec = 16 * (1 / 2 ^ f.prec) := by ring
    have e2 : (22:ℝ) / 2 ^ f.prec = 22 * (1 / 2 ^ f.prec) := by ring
    have e3 : (95:ℝ) / 2 ^ f.prec = 95 * (1 / 2 ^ f.prec) := by ring
    rw [e1, e2, e3]
    generalize (1:ℝ) / 2 ^ f.prec = U at *
    norm_num at p1 ⊢
    nlinarith
  have a1 := abs_le.1 ba
  have a2 := abs_le.1 bc
  have e : (2:ℝ) / 2 ^ f.prec * (|(x:ℝ)| ^ 3 / √(1 - (x:ℝ) ^ 2)) = 2 * (1 / 2 ^ f.prec * (|(x:ℝ)| ^ 3 / √(1 - (x:ℝ) ^ 2))) := by ring
  rw [e]
  rw [hs] at a2 k2
  exact abs_le.2 ⟨by linarith, by linarith⟩

/-- C95: `pow(x, 0.5)` against `sqrt(x)`. -/
theorem C95_pow_half (hf : f.exact = false) (x : ℚ) (z : Bool) (hx : Valid (fin x z : FV f)) (h1 : 1 / 2 ≤ x) (h2 : x ≤ 4) :
    ∃ r s : ℚ, pow (fin x z : FV f) (d 0.5) = .ok (fin r false) ∧ sqrt (fin x z : FV f) = .ok (fin s false) ∧
      |(r:ℝ) - s| ≤ 180 * (1 / 2 ^ f.prec) * √(x:ℝ) := by
  have u0 := uro_pos_real f
  have ug := uro_ge_real f
  have h1r : (1 / 2 : ℝ) ≤ x := by have := (Rat.cast_le (K := ℝ)).2 h1; push_cast at this; exact this
  have h2r : (x:ℝ) ≤ 4 := by exact_mod_cast h2
  have l2 := Real.log_two_lt_d9
  have hl : |((1 / 2 : ℚ) : ℝ) * Real.log x| ≤ 7 / 10 := by
    have k1 : Real.log x ≤ Real.log 4 := Real.log_le_log (by linarith) h2r
    have k2 : Real.log 2⁻¹ ≤ Real.log x := Real.log_le_log (by norm_num) (by linarith)
    rw [show (4:ℝ) = 2 ^ 2 by norm_num, Real.log_pow] at k1
    rw [Real.log_inv] at k2
    push_cast at k1 ⊢
    exact abs_le.2 ⟨by linarith, by linarith⟩
  have m1 := expMin_ge f.ty
  obtain ⟨r, er, -, br⟩ := C65_accuracy hf x (1 / 2) z false hx h1 (by linarith)
  obtain ⟨s, es, bs⟩ := C26_upto4 hf x z hx ((minNormal_le' f).trans (le_trans (by norm_num) h1)) (le_trans (by norm_num) h1) h2
  refine ⟨r, s, ?_, es, ?_⟩
  · rw [show (d 0.5 : FV f) = fin (1 / 2) false by rw [show (0.5:ℚ) = 1 / 2 by norm_num]; exact d_half]; exact er
  have hsq : (x:ℝ) ^ (((1 / 2 : ℚ) : ℚ) : ℝ) = √(x:ℝ) := by rw [Real.sqrt_eq_rpow]; norm_num
  rw [hsq] at br
  have S0 := Real.sqrt_nonneg (x:ℝ)
  have br' : |(r:ℝ) - √(x:ℝ)| ≤ 175 * (1 / 2 ^ f.prec) * √(x:ℝ) := by
    refine br.trans (mul_le_mul_of_nonneg_right ?_ S0)
    generalize |((1 / 2 : ℚ) : ℝ) * Real.log x| = L at *
    have hu : (0:ℝ) < 1 / 2 ^ f.prec := by positivity
    generalize (1:ℝ) / 2 ^ f.prec = U at *
    norm_num at ug ⊢
    nlinarith
  have e3 : (3:ℝ) / 2 ^ f.prec = 3 * (1 / 2 ^ f.prec) := by ring
  rw [e3] at bs
  have k := abs_sub ((r:ℝ) - √(x:ℝ)) (s - √(x:ℝ))
  rw [sub_sub_sub_cancel_right] at k
  have : 0 ≤ (1:ℝ) / 2 ^ f.prec * √(x:ℝ) := by positivity
  linarith

/-- C95: `cosh(x)^2 - sinh(x)^2` against 1. -/
theorem C95_cosh_sinh (hf : f.exact = false) (x : ℚ) (z : Bool) (hx : Valid (fin x z : FV f)) (h : |x| ≤ expMin f.ty) :
    ∃ (s c : ℚ) (sw cw : Bool), sinh (fin x z : FV f) = .ok (fin s sw) ∧ cosh (fin x z : FV f) = .ok (fin c cw) ∧
      |(c:ℝ) ^ 2 - (s:ℝ) ^ 2 - 1| ≤ (430 * (1 / 2 ^ f.prec) + (|(x:ℝ)| + 7) * (1 / 2 ^ 59)) * Real.cosh x ^ 2 := by
  obtain ⟨s, sw, c, cw, es, ec, bs, bc⟩ := C64_accuracy hf x z hx h
  refine ⟨s, c, sw, cw, es, ec, ?_⟩
  have u1 := uro7_real f
  have u0 := uro_pos_real f
  rw [← uro_eq] at bs bc ⊢
  have hxr : |(x:ℝ)| ≤ expMin f.ty := by have := (Rat.cast_le (K := ℝ)).2 h; push_cast at this; exact this
  have hm := (expMin_le f.ty).1
  set T : ℝ := (|(x:ℝ)| + 7) * (1 / 2 ^ 62) with hT
  have T0 : 0 ≤ T := by positivity
  have T1 : T ≤ 1 / 10 ^ 6 := by rw [hT]; norm_num; linarith
  set ε : ℝ := 1061 / 10 * uro f + T with hε
  have e0 : 0 ≤ ε := by positivity
  have e1 : ε ≤ 2 / 10 ^ 5 := by rw [hε]; norm_num at T1 u1 ⊢; linarith
  have C0 := Real.cosh_pos (x:ℝ)
  have hid := Real.cosh_sq (x:ℝ)
  have hS : |Real.sinh (x:ℝ)| ≤ Real.cosh x := abs_le_of_sq_le_sq (by linarith) C0.le
  rw [show (|(x:ℝ)| + 7) * (1 / 2 ^ 59) = 8 * T by rw [hT]; ring]
  set C := Real.cosh (x:ℝ)
  set S := Real.sinh (x:ℝ)
  have e : (c:ℝ) ^ 2 - (s:ℝ) ^ 2 - 1 = (c - C) * (2 * C) + ((c - C) ^ 2 + -((s - S) * (2 * S)) + -(s - S) ^ 2) := by
    rw [show (1:ℝ) = C ^ 2 - S ^ 2 by linarith]; ring
  have k1 : |((c:ℝ) - C) * (2 * C)| ≤ ε * C * (2 * C) := by
    rw [abs_mul, abs_of_pos (show 0 < 2 * C by linarith)]; gcongr
  have k2 : |-(((s:ℝ) - S) * (2 * S))| ≤ ε * C * (2 * C) := by
    rw [abs_neg, abs_mul, abs_mul, abs_two]; gcongr
  have k3 : |((c:ℝ) - C) ^ 2| ≤ (ε * C) ^ 2 := by rw [abs_pow]; gcongr
  have k4 : |-((s:ℝ) - S) ^ 2| ≤ (ε * C) ^ 2 := by rw [abs_neg, abs_pow]; gcongr
  rw [e]
  refine (abs_add_le _ _).trans ((add_le_add_right (abs_add_three _ _ _) _).trans ?_)
  have k5 : ε * ε ≤ ε * (2 / 10 ^ 5) := by gcongr
  have k6 : (4 * ε + 2 * (ε * ε)) * C ^ 2 ≤ (430 * uro f + 8 * T) * C ^ 2 := by
    refine mul_le_mul_of_nonneg_right ?_ (by positivity)
    norm_num at k5 ⊢
    linarith
  linarith

/-- C95: none of the identities holds exactly.  `tgamma(4)` is below `3!` in `float`, so converting it to `int` gives 5;
`tgamma(3)` is below `2!` in `double`; and in `double` `exp(2)` is not `exp(1)²`, `cosh²(1) - sinh²(1)` is not 1. -/
theorem C95_inexact :
    (∃ a : FV binary32, tgamma (i 4 : FV binary32) = .ok a ∧ a < i 6) ∧
    (∃ a : FV binary64, tgamma (i 3 : FV binary64) = .ok a ∧ a < i 2) ∧
    (∃ a b : FV binary64, exp (i 1 : FV binary64) = .ok a ∧ exp (i 2 : FV binary64) = .ok b ∧ a * a < b) ∧
    (∃ s c : FV binary64, sinh (i 1 : FV binary64) = .ok s ∧ cosh (i 1 : FV binary64) = .ok c ∧ i 1 < c * c - s * s) := by
  refine ⟨⟨fin (12582911/2097152) false, by decide +kernel, by decide +kernel⟩,
    ⟨fin (1125899906842623/562949953421312) false, by decide +kernel, by decide +kernel⟩,
    ⟨fin (6121026514868073/2251799813685248) false, fin (4159668786720471/562949953421312) false,
      by decide +kernel, by decide +kernel, by decide +kernel⟩,
    ⟨fin (2646317828889793/2251799813685248) false, fin (434338585747285/281474976710656) false, by decide +kernel, by decide +kernel, by decide +kernel⟩⟩

/-- C95_tgamma_succ for a concrete argument -/
example : ∃ g₀ g₁ : ℚ, tgamma (fin (5 / 2) false : FV binary32) = .ok (fin g₀ false) ∧ tgamma (fin (5 / 2 + 1) false : FV binary32) = .ok (fin g₁ false) ∧
    |(g₁:ℝ) - (5 / 2 : ℚ) * g₀| ≤ ((490 + 54 * ((5 / 2 : ℚ) + 1) * Real.log ((5 / 2 : ℚ) + 7)) / 2 ^ binary32.prec + 38 / 10 ^ 15) * Real.Gamma ((5 / 2 : ℚ) + 1) :=
  C95_tgamma_succ rfl (5 / 2) false false (by decide +kernel) (by decide +kernel) (by norm_num) (by norm_num [tgMax])

/-- C95_tgamma_round for a concrete argument: `round(tgamma(16))` is `15!` in `double` -/
example : (tgamma (i 16 : FV binary64) >>= round) = .ok (fin 1307674368000 false) :=
  C95_tgamma_round rfl 15 (by decide)

/-- C95_exp_add for concrete arguments -/
example : ∃ a b c : ℚ, exp (fin 3 false : FV binary32) = .ok (fin a false) ∧ exp (fin (-5 / 2) false : FV binary32) = .ok (fin b false) ∧
    exp (fin 3 false + fin (-5 / 2) false : FV binary32) = .ok (fin c false) ∧
    |(c:ℝ) - a * b| ≤ ((313 + 2 * |((3:ℚ) + (-5 / 2 : ℚ) : ℝ)|) * (1 / 2 ^ binary32.prec) + (|((3:ℚ):ℝ)| + |((-5 / 2 : ℚ):ℝ)| + 7) * (1 / 2 ^ 60)) *
      Real.exp ((3:ℚ) + (-5 / 2 : ℚ)) :=
  C95_exp_add rfl 3 (-5 / 2) false false (by decide +kernel) (by decide +kernel) (by decide +kernel) (by decide +kernel)

/-- C95_log_mul for concrete arguments -/
example : ∃ (a b c : ℚ) (za zb zc : Bool), log (fin 3 false : FV binary64) = .ok (fin a za) ∧ log (fin (7 / 2) false : FV binary64) = .ok (fin b zb) ∧
    log (fin 3 false * fin (7 / 2) false : FV binary64) = .ok (fin c zc) ∧
    |(c:ℝ) - (a + b)| ≤ (48 + 10 * Real.log ((3:ℚ) * (7 / 2 : ℚ))) * (1 / 2 ^ binary64.prec) :=
  C95_log_mul rfl 3 (7 / 2) (21 / 2) false false false (by decide +kernel) (by decide +kernel) (by norm_num) (by norm_num) (by decide +kernel)

/-- C95_asin_acos for a concrete argument -/
example : ∃ (a c : ℚ) (za zc : Bool), asin (fin (1 / 4) false : FV binary64) = .ok (fin a za) ∧ acos (fin (1 / 4) false : FV binary64) = .ok (fin c zc) ∧
    |(a:ℝ) + c - Real.pi / 2| ≤ 95 / 2 ^ binary64.prec + 8 / 10 ^ 17 + 2 / 2 ^ binary64.prec * (|((1 / 4 : ℚ):ℝ)| ^ 3 / √(1 - ((1 / 4 : ℚ):ℝ) ^ 2)) :=
  C95_asin_acos rfl (1 / 4) false (by decide +kernel) (by decide +kernel) (by norm_num [abs_of_pos])

/-- C95_pow_half for a concrete argument -/
example : ∃ r s : ℚ, pow (fin 3 false : FV x87) (d 0.5) = .ok (fin r false) ∧ sqrt (fin 3 false : FV x87) = .ok (fin s false) ∧
    |(r:ℝ) - s| ≤ 180 * (1 / 2 ^ x87.prec) * √((3:ℚ):ℝ) :=
  C95_pow_half rfl 3 false (by decide +kernel) (by norm_num) (by norm_num)

/-- C95_cosh_sinh for a concrete argument -/
example : ∃ (s c : ℚ) (sw cw : Bool), sinh (fin (-20) false : FV binary32) = .ok (fin s sw) ∧ cosh (fin (-20) false : FV binary32) = .ok (fin c cw) ∧
    |(c:ℝ) ^ 2 - (s:ℝ) ^ 2 - 1| ≤ (430 * (1 / 2 ^ binary32.prec) + (|((-20 : ℚ):ℝ)| + 7) * (1 / 2 ^ 59)) * Real.cosh ((-20 : ℚ):ℝ) ^ 2 :=
  C95_cosh_sinh rfl (-20) false (by decide +kernel) (by decide +kernel)

end Gcem.Props
