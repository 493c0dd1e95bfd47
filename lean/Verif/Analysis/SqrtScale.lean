import Verif.Analysis.Sqrt
import Mathlib.Tactic.Abel
import Mathlib.Tactic.GCongr

/-!
# The argument reduction of sqrt.hpp (`sqrt_simplify`) and the accuracy of `sqrt`
-/

namespace Gcem
open FV
variable {f : Fmt}

/-- Levels of the reduction: an argument at most `lev k` needs at most `k` reduction steps. -/
def lev : ℕ → ℚ
  | 0 => 4
  | 1 => 16
  | 2 => 64
  | 3 => 100
  | 4 => 100000000
  | n + 5 => 2 ^ (26 * (n + 2))

theorem lev_mono (k : ℕ) : lev k ≤ lev (k + 1) := by
  match k with
  | 0 => norm_num [lev]
  | 1 => norm_num [lev]
  | 2 => norm_num [lev]
  | 3 => norm_num [lev]
  | 4 => norm_num [lev]
  | n + 5 =>
    change (2:ℚ) ^ (26 * (n + 2)) ≤ 2 ^ (26 * (n + 1 + 2))
    exact pow_le_pow_right₀ (by norm_num) (by omega)

theorem lev_mono' {k l : ℕ} (h : k ≤ l) : lev k ≤ lev l := monotone_nat_of_le_succ lev_mono h

theorem rep_nat_small {n : ℤ} (h : |n| ≤ 16777216) : Rep f (n:ℚ) :=
  rep_int (h.trans (two_pow_prec f))

theorem rep_lev (k : ℕ) : Rep f (lev k) := by
  match k with
  | 0 => exact rep_nat_small (n := 4) (by decide)
  | 1 => exact rep_nat_small (n := 16) (by decide)
  | 2 => exact rep_nat_small (n := 64) (by decide)
  | 3 => exact rep_nat_small (n := 100) (by decide)
  | 4 =>
    have h := rep_of_scaled (f := f) (m := 390625) (e := 8) (by
      refine le_trans ?_ (two_pow_prec f); decide) (by have := emin_neg f; omega)
    have e : ((390625:ℤ):ℚ) * pow2 8 = lev 4 := by norm_num [pow2_eq, lev]
    rwa [e] at h
  | n + 5 => exact rep_pow2_nat

theorem is_1e8 : Is (d 1e8 : FV f) 100000000 := by
  have := is_d_scaled (f := f) (q := 1e8) 390625 8 (by norm_num [pow2_eq]) (by decide) (by decide)
    (by norm_num)
  convert this using 1; norm_num
theorem is_1e6 : Is (d 1e6 : FV f) 1000000 := by
  have := is_d_scaled (f := f) (q := 1e6) 1000000 0 (by norm_num [pow2_eq]) (by decide) (by decide)
    (by norm_num)
  convert this using 1; norm_num
theorem is_1e4 : Is (d 1e4 : FV f) 10000 := by
  have := is_d_scaled (f := f) (q := 1e4) 10000 0 (by norm_num [pow2_eq]) (by decide) (by decide)
    (by norm_num)
  convert this using 1; norm_num
theorem is_1e3 : Is (d 1e3 : FV f) 1000 := by
  have := is_d_scaled (f := f) (q := 1e3) 1000 0 (by norm_num [pow2_eq]) (by decide) (by decide)
    (by norm_num)
  convert this using 1; norm_num
theorem is_1e2 : Is (d 1e2 : FV f) 100 := by
  have := is_d_scaled (f := f) (q := 1e2) 100 0 (by norm_num [pow2_eq]) (by decide) (by decide)
    (by norm_num)
  convert this using 1; norm_num

/-- Final state of the reduction of `q` with multiplier `μ` after `j` steps. -/
structure Reduced (f : Fmt) (q μ y ν : ℚ) (j : ℕ) : Prop where
  rep : Rep f y
  le4 : y ≤ 4
  ge : 1 ≤ ν
  or : (j = 0 ∧ y = q ∧ ν = μ) ∨ 1 ≤ y
  lo : μ ^ 2 * q * (1 - uro f) ^ (3 * j) ≤ ν ^ 2 * y
  hi : ν ^ 2 * y ≤ μ ^ 2 * q * (1 + uro f) ^ (3 * j)

theorem rnd_rel_rat {q : ℚ} (h : 1 ≤ q) :
    q * (1 - uro f) ≤ rnd f q ∧ rnd f q ≤ q * (1 + uro f) := by
  have h1 := rnd_err_rel (f := f) (q := q) (by
    rw [abs_of_pos (by linarith)]; linarith [minNormal_lt_one f])
  rw [abs_of_pos (show 0 < q by linarith)] at h1
  obtain ⟨a, b⟩ := abs_le.1 h1
  constructor <;> linarith

theorem nov_emax {q : ℚ} (h0 : 0 ≤ q) (h : q ^ 2 ≤ pow2 (f.emax + 2)) :
    overflows f (rnd f q) = false := by
  have h1 : q ≤ pow2 (f.emax - 1) := by
    by_contra hc; push Not at hc
    have h2 : pow2 (f.emax + 2) ≤ pow2 (f.emax - 1) * pow2 (f.emax - 1) := by
      rw [← pow2_add]; exact pow2_le (by have := emax_large f; omega)
    have h3 := pow2_pos (f.emax - 1)
    nlinarith
  have hr : Rep f (pow2 (f.emax - 1)) := rep_pow2 (by
    have := emax_large f; have := emin_neg f; omega)
  refine nov_of_lt hr ?_ (by rw [abs_of_nonneg h0, abs_of_pos (pow2_pos _)]; exact h1)
  rw [overflows_false_iff]; right
  rw [abs_of_pos (pow2_pos _)]; exact pow2_lt (by omega)

/-- What the reduction promises about an argument `q` of level `k`. -/
def ReduceOK (f : Fmt) (k fuel : ℕ) : Prop :=
  ∀ (q μ : ℚ) (x m : FV f), Is x q → Is m μ → Rep f q → 0 < q → 1 ≤ μ →
    overflows f q = false → q ≤ lev k → μ ^ 2 * q * (1 + uro f) ^ (3 * k) ≤ pow2 (f.emax + 2) →
    ∃ (j : ℕ) (y ν : ℚ) (y' n' : FV f), j ≤ k ∧ Is y' y ∧ Is n' ν ∧ Reduced f q μ y ν j ∧
      sqrt_simplify fuel x m = .ok (n' * sqrt_recur y' 100 (y' / i 2))

/-- One reduction step by `c = b²`. -/
theorem reduce_step {q μ : ℚ} {x m cx bx : FV f} {b c : ℚ} {k fuel : ℕ}
    (hx : Is x q) (hm : Is m μ) (hrep : Rep f q) (hμ : 1 ≤ μ) (hb : 1 < b) (hcb : c = b ^ 2)
    (hc : Is cx c) (hbx : Is bx b)
    (hqb : c ≤ q) (hql : q / c ≤ lev k)
    (hB : μ ^ 2 * q * (1 + uro f) ^ (3 * (k + 1)) ≤ pow2 (f.emax + 2))
    (hov : overflows f q = false) (ih : ReduceOK f k fuel) :
    ∃ (j : ℕ) (y ν : ℚ) (y' n' : FV f), j ≤ k + 1 ∧ Is y' y ∧ Is n' ν ∧ Reduced f q μ y ν j ∧
      sqrt_simplify fuel (x / cx) (bx * m) = .ok (n' * sqrt_recur y' 100 (y' / i 2)) := by
  have hu := uro_pos f
  have hu1 := uro_lt_rat f
  have hb0 : 0 < c := by rw [hcb]; positivity
  have hqc : 1 ≤ q / c := by rw [le_div_iff₀ hb0]; linarith
  have hq0 : 0 < q := by linarith
  obtain ⟨y1, y2⟩ := rnd_rel_rat (f := f) hqc
  have hbm : 1 ≤ b * μ := by nlinarith
  obtain ⟨n1, n2⟩ := rnd_rel_rat (f := f) hbm
  have hone : Rep f 1 := by have := rep_pow2_nat (f := f) (n := 0); simpa using this
  have hY1 : 1 ≤ rnd f (q / c) := le_rnd_of_rep hone hqc
  have hN1 : 1 ≤ rnd f (b * μ) := le_rnd_of_rep hone hbm
  have hovY : overflows f (rnd f (q / c)) = false := by
    refine nov_of_lt hrep hov ?_
    rw [abs_of_pos (by linarith), abs_of_pos hq0, div_le_iff₀ hb0]
    have : 1 < c := by rw [hcb]; nlinarith
    nlinarith
  have hid : (b * μ) ^ 2 * (q / c) = μ ^ 2 * q := by
    rw [hcb]; field_simp
  have hB1 : μ ^ 2 * q ≤ pow2 (f.emax + 2) := by
    refine le_trans ?_ hB
    have h1 : (1:ℚ) ≤ (1 + uro f) ^ (3 * (k + 1)) := one_le_pow₀ (by linarith)
    have h2 : 0 < μ ^ 2 * q := by positivity
    nlinarith
  have hovN : overflows f (rnd f (b * μ)) = false := by
    refine nov_emax (by linarith) ?_
    refine le_trans ?_ hB1
    rw [← hid]
    have : 0 ≤ (b * μ) ^ 2 := sq_nonneg _
    nlinarith
  set Y := rnd f (q / c) with hYd
  set N := rnd f (b * μ) with hNd
  have hstep_hi : N ^ 2 * Y ≤ μ ^ 2 * q * (1 + uro f) ^ 3 := by
    rw [← hid]
    calc N ^ 2 * Y ≤ (b * μ * (1 + uro f)) ^ 2 * (q / c * (1 + uro f)) := by gcongr
      _ = _ := by ring
  have hstep_lo : μ ^ 2 * q * (1 - uro f) ^ 3 ≤ N ^ 2 * Y := by
    rw [← hid]
    have h0 : 0 ≤ 1 - uro f := by linarith
    calc (b * μ) ^ 2 * (q / c) * (1 - uro f) ^ 3
        = (b * μ * (1 - uro f)) ^ 2 * (q / c * (1 - uro f)) := by ring
      _ ≤ N ^ 2 * Y := by gcongr
  have hB2 : N ^ 2 * Y * (1 + uro f) ^ (3 * k) ≤ pow2 (f.emax + 2) := by
    refine le_trans ?_ hB
    have : (1 + uro f) ^ (3 * (k + 1)) = (1 + uro f) ^ 3 * (1 + uro f) ^ (3 * k) := by
      rw [← pow_add]; congr 1; ring
    rw [this, ← mul_assoc]
    gcongr
  obtain ⟨j, y, ν, y', n', hj, hy', hn', hr, hs⟩ := ih Y N (x / cx) (bx * m)
    (hx.div hc hb0.ne' hovY) (hbx.mul hm hovN) (rep_rnd _ _) (by linarith) hN1 hovY
    (rnd_le_of_rep (rep_lev k) hql) hB2
  refine ⟨j + 1, y, ν, y', n', by omega, hy', hn', ⟨hr.rep, hr.le4, hr.ge, Or.inr ?_, ?_, ?_⟩, hs⟩
  · rcases hr.or with ⟨-, h, -⟩ | h
    · rw [h]; exact hY1
    · exact h
  · refine le_trans ?_ hr.lo
    have : (1 - uro f) ^ (3 * (j + 1)) = (1 - uro f) ^ 3 * (1 - uro f) ^ (3 * j) := by
      rw [← pow_add]; congr 1; ring
    rw [this, ← mul_assoc]
    have h0 : 0 ≤ 1 - uro f := by linarith
    gcongr
  · refine hr.hi.trans ?_
    have : (1 + uro f) ^ (3 * (j + 1)) = (1 + uro f) ^ 3 * (1 + uro f) ^ (3 * j) := by
      rw [← pow_add]; congr 1; ring
    rw [this, ← mul_assoc]
    gcongr

theorem reduce_done {q μ : ℚ} {x m : FV f} (hx : Is x q) (hrep : Rep f q)
    (hμ : 1 ≤ μ) (h4 : q ≤ 4) : Reduced f q μ q μ 0 ∧
      ∀ n, sqrt_simplify (n + 1) x m = .ok (m * sqrt_recur x 100 (x / i 2)) := by
  refine ⟨⟨hrep, h4, hμ, Or.inl ⟨rfl, rfl, rfl⟩, by simp, by simp⟩, fun n => ?_⟩
  have h100 : Is (i 100 : FV f) 100 := by have := is_i (f := f) (n := 100) (by decide); simpa using this
  have h4' : Is (i 4 : FV f) 4 := by have := is_i (f := f) (n := 4) (by decide); simpa using this
  rw [sqrt_simplify]
  simp only [is_1e8.lt_iff hx, is_1e6.lt_iff hx, is_1e4.lt_iff hx, h100.lt_iff hx, h4'.lt_iff hx]
  rw [if_neg (by linarith), if_neg (by linarith), if_neg (by linarith), if_neg (by linarith),
    if_neg (by linarith)]
  rfl

theorem lev_div8 {q : ℚ} {k : ℕ} (a1 : 100000000 < q) (hlev : q ≤ lev (k + 1)) :
    q / 100000000 ≤ lev k := by
  rw [div_le_iff₀ (by norm_num)]
  have h4 : lev 4 = 100000000 := rfl
  rcases Nat.lt_or_ge k 4 with hk | hk
  · have := hlev.trans (lev_mono' (show k + 1 ≤ 4 by omega))
    linarith
  obtain ⟨n, rfl⟩ : ∃ n, k = n + 4 := ⟨k - 4, by omega⟩
  have h5 : ∀ m, lev (m + 5) = 2 ^ (26 * (m + 2)) := fun m => rfl
  rw [show n + 4 + 1 = n + 5 by ring, h5] at hlev
  rcases n with _ | n
  · rw [h4]; norm_num at hlev ⊢; linarith
  · rw [show n + 1 + 4 = n + 5 by ring, h5]
    rw [show 26 * (n + 1 + 2) = 26 * (n + 2) + 26 by ring, pow_add] at hlev
    have : (0:ℚ) < 2 ^ (26 * (n + 2)) := by positivity
    nlinarith

theorem lev_div4 {q : ℚ} {k : ℕ} (a1 : q ≤ 100) (hlev : q ≤ lev (k + 1)) :
    q / 4 ≤ lev k := by
  rw [div_le_iff₀ (by norm_num)]
  match k, hlev with
  | 0, h => norm_num [lev] at h ⊢; linarith
  | 1, h => norm_num [lev] at h ⊢; linarith
  | 2, h => norm_num [lev] at h ⊢; linarith
  | n + 3, h =>
    have := lev_mono' (show 3 ≤ n + 3 by omega)
    change 100 ≤ _ at this
    linarith

theorem reduce_ok (k : ℕ) : ∀ fuel, k < fuel → ReduceOK f k fuel := by
  induction k with
  | zero =>
    intro fuel hfuel q μ x m hx hm hrep hq hμ hov hlev hB
    obtain ⟨n, rfl⟩ : ∃ n, fuel = n + 1 := ⟨fuel - 1, by omega⟩
    have := reduce_done (m := m) hx hrep hμ hlev
    exact ⟨0, q, μ, x, m, le_refl _, hx, hm, this.1, this.2 n⟩
  | succ k ih =>
    intro fuel hfuel q μ x m hx hm hrep hq hμ hov hlev hB
    obtain ⟨n, rfl⟩ : ∃ n, fuel = n + 1 := ⟨fuel - 1, by omega⟩
    have ih' := ih n (by omega)
    by_cases h4 : q ≤ 4
    · have := reduce_done (m := m) hx hrep hμ h4
      exact ⟨0, q, μ, x, m, by omega, hx, hm, this.1, this.2 n⟩
    push Not at h4
    have h100 : Is (i 100 : FV f) 100 := by
      have := is_i (f := f) (n := 100) (by decide); simpa using this
    have h4' : Is (i 4 : FV f) 4 := by have := is_i (f := f) (n := 4) (by decide); simpa using this
    have h10' : Is (i 10 : FV f) 10 := by have := is_i (f := f) (n := 10) (by decide); simpa using this
    have h2' : Is (i 2 : FV f) 2 := by have := is_i (f := f) (n := 2) (by decide); simpa using this
    rw [sqrt_simplify]
    simp only [is_1e8.lt_iff hx, is_1e6.lt_iff hx, is_1e4.lt_iff hx, h100.lt_iff hx,
      h4'.lt_iff hx]
    have lev3 : 100 < q → lev 3 ≤ lev k := by
      intro h
      apply lev_mono'
      by_contra hc; push Not at hc
      have := (hlev.trans (lev_mono' (show k + 1 ≤ 3 by omega)))
      norm_num [lev] at this; linarith
    split_ifs with a1 a2 a3 a4
    · refine reduce_step hx hm hrep hμ (by norm_num) (by norm_num) is_1e8 is_1e4 a1.le ?_ hB hov ih'
      exact lev_div8 a1 hlev
    · refine reduce_step hx hm hrep hμ (by norm_num) (by norm_num) is_1e6 is_1e3 a2.le ?_ hB hov ih'
      refine le_trans ?_ (lev3 (by linarith))
      rw [div_le_iff₀ (by norm_num)]; norm_num [lev]; linarith
    · refine reduce_step hx hm hrep hμ (by norm_num) (by norm_num) is_1e4 is_1e2 a3.le ?_ hB hov ih'
      refine le_trans ?_ (lev3 (by linarith))
      rw [div_le_iff₀ (by norm_num)]; norm_num [lev]; linarith
    · refine reduce_step hx hm hrep hμ (by norm_num) (by norm_num) h100 h10' a4.le ?_ hB hov ih'
      refine le_trans ?_ (lev3 (by linarith))
      rw [div_le_iff₀ (by norm_num)]; norm_num [lev]; linarith
    · refine reduce_step hx hm hrep hμ (by norm_num) (by norm_num) h4' h2' h4.le ?_ hB hov ih'
      exact lev_div4 (by linarith) hlev

/-! ## Accuracy -/

theorem pow_up {u : ℝ} {n : ℕ} (hu : 0 ≤ u) (h : n * u ≤ 1 / 1024) :
    (1 + u) ^ n ≤ 1 + 1.001 * (n * u) := by
  induction n with
  | zero => simp
  | succ n ih =>
    push_cast at h ⊢
    have h1 : n * u ≤ 1 / 1024 := by nlinarith
    have h2 := ih h1
    rw [pow_succ]
    have h3 : (0:ℝ) ≤ n * u := by positivity
    calc (1 + u) ^ n * (1 + u) ≤ (1 + 1.001 * (n * u)) * (1 + u) := by gcongr
      _ ≤ _ := by nlinarith

theorem pow_down {u : ℝ} {n : ℕ} (hu1 : u ≤ 1) : 1 - n * u ≤ (1 - u) ^ n := by
  have := one_add_mul_le_pow (a := -u) (by linarith) n
  have e : 1 + -u = 1 - u := by ring
  rw [e] at this
  linarith

/-- Half the least binary exponent for which the Newton iteration is analysed. -/
def sqrtLowE : FTy → ℤ | .float => -63 | _ => -90

theorem sqrtArg_of {q : ℚ} (hf : f.exact = false) (h : pow2 (2 * sqrtLowE f.ty) ≤ q) (h4 : q ≤ 4) :
    SqrtArg f q := by
  have h0 := pow2_pos (2 * sqrtLowE f.ty)
  have hs : ((pow2 (sqrtLowE f.ty) : ℚ) : ℝ) ≤ √(q:ℝ) := by
    apply Real.le_sqrt_of_sq_le
    have : (pow2 (sqrtLowE f.ty)) ^ 2 ≤ q := by
      rw [sq, ← pow2_add, ← two_mul]; exact h
    exact_mod_cast this
  have key : ∀ e : ℤ, e ≤ -(f.prec:ℤ) + -(f.prec:ℤ) + sqrtLowE f.ty →
      ((pow2 e : ℚ) : ℝ) ≤ (uro f : ℝ) ^ 2 * √(q:ℝ) := by
    intro e he
    have h1 : pow2 e ≤ uro f ^ 2 * pow2 (sqrtLowE f.ty) := by
      unfold uro; rw [sq, ← pow2_add, ← pow2_add]; exact pow2_le he
    have h2 : ((pow2 e : ℚ) : ℝ) ≤ (uro f : ℝ) ^ 2 * ((pow2 (sqrtLowE f.ty) : ℚ) : ℝ) := by
      exact_mod_cast h1
    have h3 : (0:ℝ) < (uro f : ℝ) ^ 2 := by have := uro_pos_real f; positivity
    nlinarith
  refine ⟨hf, by linarith, ?_, h4, ?_, ?_, ?_⟩
  · refine le_trans (pow2_le ?_) h
    rcases f with ⟨⟨⟩, ⟨⟩⟩ <;> decide
  · refine le_trans ?_ hs
    have h1 : pow2 (-90) ≤ pow2 (sqrtLowE f.ty) := pow2_le (by rcases f with ⟨⟨⟩, ⟨⟩⟩ <;> decide)
    have h2 : ((pow2 (-90) : ℚ) : ℝ) ≤ ((pow2 (sqrtLowE f.ty) : ℚ) : ℝ) := by exact_mod_cast h1
    refine le_trans (le_of_eq ?_) h2
    have : pow2 (-90) = 1 / 2 ^ 90 := by norm_num [pow2_eq]
    rw [this]; push_cast; rfl
  · exact key _ (by rcases f with ⟨⟨⟩, ⟨⟩⟩ <;> decide)
  · have h1 := key (f.emin + f.prec - 1 + 5) (by rcases f with ⟨⟨⟩, ⟨⟩⟩ <;> decide)
    refine le_trans (le_of_eq ?_) h1
    have : pow2 (f.emin + f.prec - 1 + 5) = 32 * minNormal f := by
      unfold minNormal; rw [pow2_add]; norm_num [pow2_eq]; ring
    rw [this]; push_cast; rfl

theorem sq_close {w E : ℝ} (hw : 0 ≤ w) (hE : E ≤ 0.01) (h : |w ^ 2 - 1| ≤ E) :
    |w - 1| ≤ 0.504 * E := by
  obtain ⟨h1, h2⟩ := abs_le.1 h
  have hw1 : 0.99 ≤ w := by nlinarith
  have h3 : |w ^ 2 - 1| = |w - 1| * (w + 1) := by
    rw [show w ^ 2 - 1 = (w - 1) * (w + 1) by ring, abs_mul, abs_of_pos (by linarith : 0 < w + 1)]
  rw [h3] at h
  have := abs_nonneg (w - 1)
  nlinarith

theorem combine {w t δ u k : ℝ} (hu : 0 ≤ u) (hu1 : u ≤ 1 / 16777216) (hk : 0 ≤ k)
    (hw : |w - 1| ≤ 1.515 * k) (ht : |t - 1| ≤ 3 * u) (hδ : |δ| ≤ u) :
    |w * t * (1 + δ) - 1| ≤ 1.52 * k + 5 * u := by
  obtain ⟨w1, w2⟩ := abs_le.1 hw
  obtain ⟨t1, t2⟩ := abs_le.1 ht
  obtain ⟨d1, d2⟩ := abs_le.1 hδ
  have h1 : |t * (1 + δ) - 1| ≤ 4.1 * u := by
    rw [abs_le]; constructor <;> nlinarith
  set v := t * (1 + δ) with hv
  have e : w * t * (1 + δ) - 1 = (w - 1) * v + (v - 1) := by rw [hv]; ring
  rw [e]
  have hv2 : |v| ≤ 1.001 := by
    obtain ⟨a, b⟩ := abs_le.1 h1
    rw [abs_le]; constructor <;> linarith
  calc |(w - 1) * v + (v - 1)| ≤ |(w - 1) * v| + |v - 1| := abs_add_le _ _
    _ = |w - 1| * |v| + |v - 1| := by rw [abs_mul]
    _ ≤ 1.515 * k * 1.001 + 4.1 * u := by gcongr
    _ ≤ _ := by linarith

/-- The reduction and the iteration together. -/
theorem sqrt_simplify_acc {q : ℚ} {x : FV f} {K : ℕ} (hf : f.exact = false) (hx : Is x q)
    (hrep : Rep f q) (hov : overflows f q = false) (hlow : pow2 (2 * sqrtLowE f.ty) ≤ q)
    (hK : q ≤ lev K) (hKu : ((3 * K : ℕ) : ℝ) * uro f ≤ 1 / 1024) {fuel : ℕ} (hfuel : K < fuel) :
    ∃ r : ℚ, sqrt_simplify fuel x (i 1) = .ok (fin r false) ∧
      |(r:ℝ) / √(q:ℝ) - 1| ≤ (1.52 * K + 5) * uro f := by
  have hu := uro_pos_real f
  have hu1 := uro_le f
  have hq0 : 0 < q := lt_of_lt_of_le (pow2_pos _) hlow
  have hq0' : (0:ℝ) < q := by exact_mod_cast hq0
  have hqmax : q < pow2 f.emax := by
    rcases overflows_false_iff.1 hov with h | h
    · rw [hf] at h; cases h
    · rwa [abs_of_pos hq0] at h
  have hup : (1 + uro f) ^ (3 * K) ≤ 2 := by
    have := pow_up hu.le hKu
    have h2 : (((1 + uro f) ^ (3 * K) : ℚ) : ℝ) ≤ 2 := by push_cast; linarith
    exact_mod_cast h2
  have hpe : pow2 (f.emax + 2) = 4 * pow2 f.emax := by rw [pow2_add]; norm_num [pow2_eq]; ring
  have hpm := pow2_pos f.emax
  obtain ⟨j, y, ν, y', n', hj, hy, hn, hr, hs⟩ := reduce_ok (f := f) K fuel hfuel q 1 x (i 1) hx
    (by rw [i_one]; exact is_fin _ _) hrep hq0 le_rfl hov hK (by rw [hpe]; nlinarith)
  have hylow : pow2 (2 * sqrtLowE f.ty) ≤ y := by
    rcases hr.or with ⟨-, h, -⟩ | h
    · rw [h]; exact hlow
    · refine le_trans ?_ h
      have : pow2 0 = 1 := by norm_num [pow2_eq]
      rw [← this]
      exact pow2_le (by rcases f with ⟨⟨⟩, ⟨⟩⟩ <;> decide)
  have harg := sqrtArg_of hf hylow hr.le4
  obtain ⟨ρ, hρ, hρe⟩ := sqrt_recur_spec harg hy
  have hsy := harg.s_pos
  have hsysq := harg.sq
  set t := (ρ:ℝ) / √(y:ℝ) with ht
  obtain ⟨t1, t2⟩ := abs_le.1 hρe
  have hρt : (ρ:ℝ) = t * √(y:ℝ) := by rw [ht]; field_simp
  have hν1 : (1:ℝ) ≤ ν := by exact_mod_cast hr.ge
  have ht0 : 0 < t := by linarith
  have hρ0 : (0:ℝ) < ρ := by rw [hρt]; positivity
  have hjK : (j:ℝ) ≤ K := by exact_mod_cast hj
  have hju : ((3 * j : ℕ) : ℝ) * uro f ≤ 1 / 1024 := by
    refine le_trans ?_ hKu
    push_cast; gcongr
  have hlo : (q:ℝ) * (1 - uro f) ^ (3 * j) ≤ (ν:ℝ) ^ 2 * y := by
    have := hr.lo; rw [one_pow, one_mul] at this; exact_mod_cast this
  have hhi : (ν:ℝ) ^ 2 * y ≤ q * (1 + uro f) ^ (3 * j) := by
    have := hr.hi; rw [one_pow, one_mul] at this; exact_mod_cast this
  have hpu := pow_up hu.le hju
  have hpd := pow_down (n := 3 * j) (show (uro f : ℝ) ≤ 1 by linarith)
  have hsq : 0 < √(q:ℝ) := Real.sqrt_pos.2 hq0'
  have hsqsq : √(q:ℝ) ^ 2 = q := Real.sq_sqrt hq0'.le
  set w := (ν:ℝ) * √(y:ℝ) / √(q:ℝ) with hw
  have hw0 : 0 ≤ w := by positivity
  have hw2 : w ^ 2 = (ν:ℝ) ^ 2 * y / q := by
    rw [hw, div_pow, mul_pow, hsysq, hsqsq]
  have hwE : |w ^ 2 - 1| ≤ 1.001 * (((3 * j : ℕ) : ℝ) * uro f) := by
    have h3 : (0:ℝ) ≤ ((3 * j : ℕ) : ℝ) * uro f := by positivity
    rw [hw2, abs_le]
    constructor
    · have : 1 - ((3 * j : ℕ) : ℝ) * uro f ≤ (ν:ℝ) ^ 2 * y / q := by
        rw [le_div_iff₀ hq0']; nlinarith
      linarith
    · have : (ν:ℝ) ^ 2 * y / q ≤ 1 + 1.001 * (((3 * j : ℕ) : ℝ) * uro f) := by
        rw [div_le_iff₀ hq0']; nlinarith
      linarith
  have hwc := sq_close hw0 (by linarith) hwE
  have hwc2 : |w - 1| ≤ 1.515 * (K * uro f) := by
    refine hwc.trans ?_
    push_cast
    have : (j:ℝ) * uro f ≤ K * uro f := by gcongr
    have hK0 : (0:ℝ) ≤ K * uro f := by positivity
    linarith
  have hKu2 : (K:ℝ) * uro f ≤ 1 / 3072 := by push_cast at hKu; linarith
  obtain ⟨w1, w2⟩ := abs_le.1 hwc2
  have hK0 : (0:ℝ) ≤ K * uro f := by positivity
  have hprod : ((ν * ρ : ℚ) : ℝ) = w * t * √(q:ℝ) := by
    push_cast; rw [hρt, hw]; field_simp
  have hprod0 : 0 < ν * ρ := by
    have : (0:ℝ) < ((ν * ρ : ℚ) : ℝ) := by push_cast; positivity
    exact_mod_cast this
  have hnorm : minNormal f ≤ ν * ρ := by
    have h1 := harg.nrm2
    have hmn : (0:ℝ) < ((minNormal f : ℚ) : ℝ) := by exact_mod_cast minNormal_pos f
    have : ((minNormal f : ℚ) : ℝ) ≤ ((ν * ρ : ℚ) : ℝ) := by
      push_cast
      have h2 : ((minNormal f : ℚ) : ℝ) ≤ ρ := by
        rw [hρt]
        have h3 : 1 / 2 * √(y:ℝ) ≤ t * √(y:ℝ) := mul_le_mul_of_nonneg_right (by linarith) hsy.le
        linarith
      exact h2.trans (le_mul_of_one_le_left hρ0.le hν1)
    exact_mod_cast this
  have hovr : overflows f (rnd f (ν * ρ)) = false := by
    apply nov_emax hprod0.le
    have : (((ν * ρ) ^ 2 : ℚ) : ℝ) ≤ ((4 * pow2 f.emax : ℚ) : ℝ) := by
      have h1 : (((ν * ρ) ^ 2 : ℚ) : ℝ) = (w * t) ^ 2 * q := by
        rw [Rat.cast_pow, hprod, mul_pow, hsqsq]
      rw [h1]
      have h2 : (q:ℝ) ≤ ((pow2 f.emax : ℚ) : ℝ) := by exact_mod_cast hqmax.le
      have h3 : w * t ≤ 1.4 * 1.4 := mul_le_mul (by linarith) (by linarith) ht0.le (by norm_num)
      have h4 : 0 ≤ w * t := by positivity
      have h5 : (w * t) ^ 2 ≤ 2 ^ 2 := pow_le_pow_left₀ h4 (by linarith) 2
      push_cast
      calc (w * t) ^ 2 * q ≤ 2 ^ 2 * ((pow2 f.emax : ℚ) : ℝ) :=
            mul_le_mul h5 h2 hq0'.le (by positivity)
        _ = _ := by ring
    rw [hpe]; exact_mod_cast this
  have hres := hn.mul hρ hovr
  refine ⟨rnd f (ν * ρ), ?_, ?_⟩
  · rw [hs]
    congr 1
    obtain ⟨z, hz⟩ := hres
    have hv := valid_mul n' (sqrt_recur y' 100 (y' / i 2))
    rw [hz] at hv ⊢
    have := rnd_pos hnorm
    rw [hv.z_false (by have := minNormal_pos f; linarith)]
  · obtain ⟨δ, hδ, hδe⟩ := rnd_rel (f := f) (q := ν * ρ) (by rw [abs_of_pos hprod0]; exact hnorm)
    rw [hδe, hprod]
    have e1 : w * t * √(q:ℝ) * (1 + δ) / √(q:ℝ) = w * t * (1 + δ) := by field_simp
    rw [e1]
    have := combine hu.le hu1 hK0 hwc2 hρe hδ
    linarith

end Gcem
