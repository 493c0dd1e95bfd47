import Verif.Props.Cross
import Verif.Props.ErfBig
import Verif.Props.Expm1Acc
import Verif.Props.SmallArg
import Verif.Props.HypAcc
import Verif.Props.ExpTail
import Verif.Props.Hypot
import Verif.Props.Sqrt
import Verif.Props.SqrtExact
import Verif.Props.IgammaInvTop

/-! # C96: results on the right side of 0 and 1 -/

namespace Gcem.Props
open FV

variable {f : Fmt}

/-- the Newton iteration of `sqrt` never leaves `[1, 4]` for an argument in `[1, 4]` -/
theorem rg_recur (hf : f.exact = false) {q : ℚ} {x : FV f} (hx : Is x q) (h1 : 1 ≤ q) (h4 : q ≤ 4) :
    ∀ (left : ℕ) (a : ℚ) (xn : FV f), Is xn a → Rep f a → 1 ≤ a → a ≤ 4 →
      ∃ r, Is (sqrt_recur x left xn) r ∧ 1 ≤ r := by
  intro left
  induction left with
  | zero =>
    intro a xn ha hr a1 a4
    rw [sqrt_recur]
    split_ifs <;> exact ⟨a, ha, a1⟩
  | succ n ih =>
    intro a xn ha hr a1 a4
    rw [sqrt_recur]
    split_ifs
    · exact ⟨a, ha, a1⟩
    have a0 : 0 < a := by linarith
    have r4 : Rep f (4:ℚ) := by have := rep_pow2_nat (f := f) (n := 2); norm_num at this; exact this
    have r2 : Rep f (2:ℚ) := by have := rep_pow2_nat (f := f) (n := 1); norm_num at this; exact this
    have r8 : Rep f (8:ℚ) := by have := rep_pow2_nat (f := f) (n := 3); norm_num at this; exact this
    have q0 : 0 < q / a := by positivity
    have q4 : q / a ≤ 4 := by rw [div_le_iff₀ a0]; linarith
    have i1 := hx.div ha a0.ne' (nov (by rw [abs_of_pos q0]; exact q4.trans (by norm_num)))
    have t4 : rnd f (q / a) ≤ 4 := rnd_le_of_rep r4 q4
    have t0 : 0 ≤ rnd f (q / a) := le_rnd_of_rep Rep.zero q0.le
    have i2 := ha.add i1 (nov (by rw [abs_of_pos (by linarith)]; exact (add_le_add a4 t4).trans (by norm_num)))
    have s2 : 2 ≤ a + rnd f (q / a) := by
      rcases le_total 2 a with h | h
      · linarith
      · have hr2 : Rep f (2 - a) := by
          have := (rep_sub_int (n := 2) hf hr (by rw [abs_of_pos a0]; exact a1) (by push_cast; rw [abs_le]; constructor <;> linarith)).neg
          push_cast at this
          rwa [neg_sub] at this
        have : 2 - a ≤ rnd f (q / a) := le_rnd_of_rep hr2 (by
          rw [le_div_iff₀ a0]; nlinarith [sq_nonneg (a - 1)])
        linarith
    have s2' : 2 ≤ rnd f (a + rnd f (q / a)) := le_rnd_of_rep r2 s2
    have s8' : rnd f (a + rnd f (q / a)) ≤ 8 := rnd_le_of_rep r8 (by linarith)
    have i3 := (is_d_half (f := f)).mul i2 (nov (by rw [abs_of_pos (by linarith)]; exact (show _ ≤ (4:ℚ) by linarith).trans (by norm_num)))
    exact ih _ _ i3 (rep_rnd _ _) (le_rnd_of_rep rep_one' (by linarith)) (rnd_le_of_rep r4 (by linarith))

/-- the starting value `x/2` is below 1 for `x < 2`, but the first step leads to `[1, 4]` -/
theorem rg_first (hf : f.exact = false) {q : ℚ} {x : FV f} (hx : Is x q) (hr : Rep f q) (h1 : 1 ≤ q) (h4 : q ≤ 4) :
    ∃ r, Is (sqrt_recur x 100 (x / i 2)) r ∧ 1 ≤ r := by
  have i2 : Is (i 2 : FV f) 2 := by have := is_i (f := f) (n := 2) (by norm_num); push_cast at this; exact this
  have i0 := hx.div i2 (by norm_num) (nov (by rw [abs_of_pos (by linarith)]; exact (show q / 2 ≤ 2 by linarith).trans (by norm_num)))
  rcases le_total 2 q with h2 | h2
  · refine rg_recur hf hx h1 h4 100 _ _ i0 (rep_rnd _ _) (le_rnd_of_rep rep_one' (by linarith)) (rnd_le_of_rep ?_ (show q / 2 ≤ 4 by linarith))
    have := rep_pow2_nat (f := f) (n := 2); norm_num at this; exact this
  have hh : Rep f (q / 2) := rep_half_of hf hr (by have := minNormal_le' f; linarith)
  have hd : rnd f (q / 2) = q / 2 := hh
  rw [hd] at i0
  have r2 : Rep f (2:ℚ) := by have := rep_pow2_nat (f := f) (n := 1); norm_num at this; exact this
  have j1 := hx.div i0 (by linarith) (nov (by
    rw [show q / (q / 2) = 2 by field_simp, abs_of_pos (by norm_num)]; norm_num))
  rw [show q / (q / 2) = 2 by field_simp, show rnd f 2 = 2 from r2] at j1
  have j2 := i0.sub j1 (nov (by rw [abs_le]; constructor <;> norm_num <;> linarith))
  have k2 : rnd f (q / 2 - 2) ≤ -1 := rnd_le_of_rep rep_one'.neg (by linarith)
  have k2' : -2 ≤ rnd f (q / 2 - 2) := le_rnd_of_rep r2.neg (by linarith)
  have j3 := (is_one (f := f)).add i0 (nov (by rw [abs_le]; constructor <;> norm_num <;> linarith))
  have k3 : rnd f (1 + q / 2) ≤ 2 := rnd_le_of_rep r2 (by linarith)
  have k3' : 1 ≤ rnd f (1 + q / 2) := le_rnd_of_rep rep_one' (by linarith)
  have m1 : 1 / 2 ≤ |rnd f (q / 2 - 2)| / rnd f (1 + q / 2) := by
    rw [abs_of_neg (by linarith), le_div_iff₀ (by linarith)]; linarith
  have m2 : |rnd f (q / 2 - 2)| / rnd f (1 + q / 2) ≤ 2 := by
    rw [abs_of_neg (by linarith), div_le_iff₀ (by linarith)]; linarith
  have j4 := j2.fabs.div j3 (by linarith) (nov (by rw [abs_of_pos (by linarith)]; exact m2.trans (by norm_num)))
  have k4 : 1 / 2 ≤ rnd f (|rnd f (q / 2 - 2)| / rnd f (1 + q / 2)) := le_rnd_of_rep (gi_rep_half) m1
  rw [sqrt_recur, if_neg (by
    unfold limMin
    rw [j4.lt_iff (is_fin _ _)]
    have := minNormal_le' f
    norm_num at this
    linarith)]
  have j5 := i0.add j1 (nov (by rw [abs_le]; constructor <;> norm_num <;> linarith))
  have r8 : Rep f (8:ℚ) := by have := rep_pow2_nat (f := f) (n := 3); norm_num at this; exact this
  have r4 : Rep f (4:ℚ) := by have := rep_pow2_nat (f := f) (n := 2); norm_num at this; exact this
  have k5 : 2 ≤ rnd f (q / 2 + 2) := le_rnd_of_rep r2 (by linarith)
  have k5' : rnd f (q / 2 + 2) ≤ 4 := rnd_le_of_rep r4 (by linarith)
  have j6 := (is_d_half (f := f)).mul j5 (nov (by rw [abs_of_pos (by linarith)]; exact (show _ ≤ (4:ℚ) by linarith).trans (by norm_num)))
  exact rg_recur hf hx h1 h4 99 _ _ j6 (rep_rnd _ _) (le_rnd_of_rep rep_one' (by linarith)) (rnd_le_of_rep r4 (by linarith))

theorem rg_one_le_div {x c : FV f} (hx : (fin 1 false : FV f) ≤ x) {k : ℚ} (hc : Is c k) (hk : 1 ≤ k) (h : c < x) : (fin 1 false : FV f) ≤ x / c := by
  obtain ⟨w, rfl⟩ := hc
  cases x with
  | nan => exact absurd hx le_nan
  | inf s =>
    cases s
    · have : (inf false : FV f) / fin k w = inf false := by
        have hs : sign (fin k w : FV f) = false := by rw [sign, if_neg (by linarith)]; simp; linarith
        change FV.div _ _ = _
        simp [FV.div, hs]
      rw [this]; simp
    · simp at hx
  | fin q z =>
    rw [fin_lt] at h
    rw [fin_div (by linarith)]
    unfold mk
    simp only []
    have q1 : 1 ≤ rnd f (q / k) := le_rnd_of_rep rep_one' (by rw [le_div_iff₀ (by linarith)]; linarith)
    have q0 : 0 ≤ q / k := div_nonneg (by linarith) (by linarith)
    split_ifs with ho
    · simp [not_lt.2 q0]
    all_goals first | (rw [fin_le]; exact q1) | skip

/-- `sqrt_simplify` keeps argument and multiplier at least 1 -/
theorem rg_simplify (hf : f.exact = false) (n : ℕ) : ∀ (x m v : FV f), Valid x → (fin 1 false : FV f) ≤ x → (fin 1 false : FV f) ≤ m →
    sqrt_simplify n x m = .ok v → (fin 1 false : FV f) ≤ v := by
  have c8 : ∃ k : ℚ, Is (d 1e8 : FV f) k ∧ 1 ≤ k := by
    obtain ⟨ty, ex⟩ := f; cases (show ex = false from hf)
    refine ⟨1e8, ?_, by norm_num⟩
    cases ty <;> exact ⟨false, by decide +kernel⟩
  have c6 : ∃ k : ℚ, Is (d 1e6 : FV f) k ∧ 1 ≤ k := by
    obtain ⟨ty, ex⟩ := f; cases (show ex = false from hf)
    refine ⟨1e6, ?_, by norm_num⟩
    cases ty <;> exact ⟨false, by decide +kernel⟩
  have c4 : ∃ k : ℚ, Is (d 1e4 : FV f) k ∧ 1 ≤ k := by
    obtain ⟨ty, ex⟩ := f; cases (show ex = false from hf)
    refine ⟨1e4, ?_, by norm_num⟩
    cases ty <;> exact ⟨false, by decide +kernel⟩
  have c3 : ∃ k : ℚ, Is (d 1e3 : FV f) k ∧ 1 ≤ k := by
    obtain ⟨ty, ex⟩ := f; cases (show ex = false from hf)
    refine ⟨1e3, ?_, by norm_num⟩
    cases ty <;> exact ⟨false, by decide +kernel⟩
  have c2 : ∃ k : ℚ, Is (d 1e2 : FV f) k ∧ 1 ≤ k := by
    obtain ⟨ty, ex⟩ := f; cases (show ex = false from hf)
    refine ⟨1e2, ?_, by norm_num⟩
    cases ty <;> exact ⟨false, by decide +kernel⟩
  obtain ⟨k8, c8, d8⟩ := c8
  obtain ⟨k6, c6, d6⟩ := c6
  obtain ⟨k4, c4, d4⟩ := c4
  obtain ⟨k3, c3, d3⟩ := c3
  obtain ⟨k2, c2, d2⟩ := c2
  have ii : ∀ n : ℕ, 1 ≤ n → n ≤ 100 → Is (i n : FV f) (n:ℚ) ∧ (1:ℚ) ≤ n := fun n h h' =>
    ⟨by have := is_i (f := f) (n := n) (by rw [abs_of_nonneg (by positivity)]; omega); push_cast at this; exact this, by exact_mod_cast h⟩
  have ge : ∀ {c : FV f} {k : ℚ}, Is c k → 1 ≤ k → (fin 1 false : FV f) ≤ c := fun h hk => ((is_fin 1 false).le_iff h).2 hk
  induction n with
  | zero => intro x m v _ _ _ h; cases h
  | succ n ih =>
    intro x m v hv hx hm h
    unfold sqrt_simplify at h
    split_ifs at h with a1 a2 a3 a4 a5
    · exact ih _ _ _ (valid_div _ _) (rg_one_le_div hx c8 d8 a1) (one_le_mul (ge c4 d4) hm) h
    · exact ih _ _ _ (valid_div _ _) (rg_one_le_div hx c6 d6 a2) (one_le_mul (ge c3 d3) hm) h
    · exact ih _ _ _ (valid_div _ _) (rg_one_le_div hx c4 d4 a3) (one_le_mul (ge c2 d2) hm) h
    · exact ih _ _ _ (valid_div _ _) (rg_one_le_div hx (ii 100 (by norm_num) le_rfl).1 (ii 100 (by norm_num) le_rfl).2 a4)
        (one_le_mul (ge (ii 10 (by norm_num) (by norm_num)).1 (ii 10 (by norm_num) (by norm_num)).2) hm) h
    · exact ih _ _ _ (valid_div _ _) (rg_one_le_div hx (ii 4 (by norm_num) (by norm_num)).1 (ii 4 (by norm_num) (by norm_num)).2 a5)
        (one_le_mul (ge (ii 2 (by norm_num) (by norm_num)).1 (ii 2 (by norm_num) (by norm_num)).2) hm) h
    · injection h with h
      rw [← h]
      refine one_le_mul hm ?_
      cases x with
      | nan => exact absurd hx le_nan
      | inf s =>
        cases s
        · exact absurd (by rw [gt_iff]; obtain ⟨w, hw⟩ := c8; rw [hw]; simp) a1
        · simp at hx
      | fin q z =>
        rw [fin_le] at hx
        have h4 : q ≤ 4 := by
          have := (is_fin (f := f) q z)
          by_contra hc
          push Not at hc
          exact a5 (((ii 4 (by norm_num) (by norm_num)).1.lt_iff this).2 (by push_cast; exact hc))
        obtain ⟨r, e, r1⟩ := rg_first hf (is_fin q z) hv.rep hx h4
        exact ge e r1

/-- C96: `sqrt(x) >= 1` for every `x >= 1`, infinity included. -/
theorem C96_sqrt (hf : f.exact = false) (x : FV f) (hx : Valid x) (h : i 1 ≤ x) : ∃ r, sqrt x = .ok r ∧ i 1 ≤ r := by
  have i1 : (i 1 : FV f) = fin 1 false := i_one
  rw [i1] at h ⊢
  obtain ⟨⟨r, e⟩, -⟩ := C25_total hf x hx
  refine ⟨r, e, ?_⟩
  cases x with
  | nan => exact absurd h le_nan
  | inf s =>
    cases s
    · rw [C25_special.2.2.1] at e; injection e with e; rw [← e]; simp
    · simp at h
  | fin q z =>
    rw [fin_le] at h
    rcases sqrt_normal hx ((minNormal_le' f).trans (le_trans (by norm_num) h)) with ⟨-, e'⟩ | e'
    · rw [e] at e'; injection e' with e'; rw [e', fin_le]; exact h
    · rw [e] at e'
      exact rg_simplify hf _ _ _ _ hx (by rw [fin_le]; exact h) (by rw [i1]; simp) e'.symm

theorem rg_le_mk {c q : ℚ} {w zs : Bool} (hc : Rep f c) (c0 : 0 ≤ c) (h : c ≤ q) : (fin c w : FV f) ≤ mk f q zs := by
  have h2 := le_rnd_of_rep hc h
  rcases ho : overflows f (rnd f q) with _ | _
  · rw [mk_fin ho, fin_le]; exact h2
  · unfold mk
    simp only [ho, if_true]
    rw [fin_le_inf]; simp; linarith

/-- multiplying by a factor that is at least 1 does not decrease a positive value -/
theorem rg_mul_ge {q : ℚ} {z : Bool} {s : FV f} (hr : Rep f q) (q0 : 0 < q) (hs : (fin 1 false : FV f) ≤ s) : (fin q z : FV f) ≤ fin q z * s := by
  cases s with
  | nan => exact absurd hs le_nan
  | inf t =>
    rw [fin_le_inf] at hs; subst hs
    have hs : sign (fin q z : FV f) = false := by rw [sign, if_neg q0.ne']; simp; exact q0.le
    show _ ≤ FV.mul _ _
    simp only [FV.mul, q0.ne', if_false, hs]; simp
  | fin r w =>
    rw [fin_le] at hs
    rw [fin_mul]
    exact rg_le_mk hr q0.le (by nlinarith)

/-- one plus a square is at least one -/
theorem rg_one_add_sq {t : FV f} (ht : t ≠ nan) : (fin 1 false : FV f) ≤ fin 1 false + t * t := by
  cases t with
  | nan => exact absurd rfl ht
  | inf s =>
    have : (inf s : FV f) * inf s = inf false := by
      change FV.mul _ _ = _
      cases s <;> rfl
    rw [this]
    have e : (fin 1 false : FV f) + inf false = inf false := rfl
    rw [e]; simp
  | fin q z =>
    rw [fin_mul]
    have h0 : 0 ≤ q * q := mul_self_nonneg q
    rcases ho : overflows f (rnd f (q * q)) with _ | _
    · rw [mk_fin ho, fin_add]
      exact rg_le_mk rep_one' zero_le_one (by have := rnd_nonneg (f := f) h0; linarith)
    · unfold mk
      simp only [ho, if_true]
      rw [show decide (q * q < 0) = false by simp [h0]]
      have e : (fin 1 false : FV f) + inf false = inf false := rfl
      rw [e]; simp

/-- C96: `hypot(x, y) >= |x|` for every normal `x` and every finite `y`; `hypot` is `+∞` when an argument is infinite. -/
theorem C96_hypot (hf : f.exact = false) (q p : ℚ) (z w : Bool) (hx : Valid (fin q z : FV f)) (hy : Valid (fin p w : FV f)) (hn : minNormal f ≤ |q|) :
    ∃ r, hypot (fin q z : FV f) (fin p w) = .ok r ∧ fin |q| false ≤ r := by
  have m0 := minNormal_pos f
  have q0 : q ≠ 0 := by rintro rfl; simp at hn; linarith
  have fx : fabs (fin q z : FV f) = fin |q| false := fabs_fin hx
  unfold hypot hypot_vals_check
  rw [if_neg (by simp [any_nan]), if_neg (by simp [any_inf]), if_neg (by unfold limMin; rw [gt_iff, fx, fin_lt]; linarith)]
  split_ifs with h
  · exact ⟨_, rfl, by rw [fx, fin_le]⟩
  · unfold hypot_compute
    obtain ⟨r, e, r1⟩ := C96_sqrt hf (i 1 + (fin p w / fin q z) * (fin p w / fin q z) : FV f) (valid_add _ _)
      (by
        rw [i_one]
        refine rg_one_add_sq ?_
        rw [fin_div q0]
        unfold mk
        simp only []
        split_ifs <;> simp)
    rw [e]
    refine ⟨_, rfl, ?_⟩
    rw [fx]
    rw [i_one] at r1
    refine rg_mul_ge ?_ (lt_of_lt_of_le m0 hn) r1
    rcases abs_choice q with h | h <;> rw [h]
    · exact hx.rep
    · exact hx.rep.neg

/-- C96 is FALSE for the other argument: `hypot(1.0f, 4002.0f)` is below `4002`, and so is `hypot(1.0, 100007919.0)`
below `100007919`; and for subnormal values `hypot(x, 0)` is `0`. -/
theorem C96_hypot_second : (∃ r : ℚ, hypot (fin 1 false : FV binary32) (fin 4002 false) = .ok (fin r false) ∧ r < 4002) ∧
    (∃ r : ℚ, hypot (fin 1 false : FV binary64) (fin 100007919 false) = .ok (fin r false) ∧ r < 100007919) ∧
    hypot (fin (1 / 2 ^ 127) false : FV binary32) (fin 0 false) = .ok (fin 0 false) :=
  ⟨⟨16392191 / 4096, by decide +kernel, by norm_num⟩, ⟨6711417835094015 / 67108864, by decide +kernel, by norm_num⟩, by decide +kernel⟩

/-! ## exp -/

theorem rg_exp_cf_pos {x : ℚ} {z : Bool} (h0 : 0 ≤ x) (h2 : x ≤ 2) : ∃ r, Is (exp_cf (fin x z : FV f)) r ∧ 1 ≤ r := by
  obtain ⟨a, ha, he⟩ := exp_loop_pos (f := f) (z := z) h0 h2
  obtain ⟨e1, e2, e3⟩ := expR_pos_23 h0 h2
  have hw := wro_le f
  have he' := abs_le.1 he
  have a1 : 9 / 10 ≤ a := by linarith
  have a2 : x + 1 / 5 ≤ a := by linarith
  have a3 : a ≤ 31 / 10 := by linarith
  unfold exp_cf
  have q1 : x / a ≤ 15 / 16 := by rw [div_le_iff₀ (by linarith)]; linarith
  have q0 : 0 ≤ x / a := div_nonneg h0 (by linarith)
  have j1 := (is_fin (f := f) x z).div ha (by linarith) (nov (by rw [abs_of_nonneg q0]; exact q1.trans (by norm_num)))
  have r15 : Rep f (15 / 16 : ℚ) := by
    have h16 : Rep f (15 : ℚ) := by
      have := rep_int (f := f) (n := 15) (by have := two_pow_prec f; rw [abs_le]; constructor <;> omega)
      push_cast at this; exact this
    unfold Rep
    rcases f with ⟨⟨⟩, ⟨⟩⟩ <;> decide +kernel
  have k0 : 0 ≤ rnd f (x / a) := rnd_nonneg q0
  have k1 : rnd f (x / a) ≤ 15 / 16 := rnd_le_of_rep r15 q1
  have j2 := (is_one (f := f)).sub j1 (nov (by rw [abs_of_nonneg (by linarith)]; exact (show _ ≤ (1:ℚ) by linarith).trans (by norm_num)))
  have r16 : Rep f (1 / 16 : ℚ) := by
    unfold Rep
    rcases f with ⟨⟨⟩, ⟨⟩⟩ <;> decide +kernel
  have l0 : 1 / 16 ≤ rnd f (1 - rnd f (x / a)) := le_rnd_of_rep r16 (by linarith)
  have l1 : rnd f (1 - rnd f (x / a)) ≤ 1 := rnd_le_of_rep rep_one' (by linarith)
  have m1 : 1 ≤ 1 / rnd f (1 - rnd f (x / a)) := by rw [le_div_iff₀ (by linarith)]; linarith
  have m2 : 1 / rnd f (1 - rnd f (x / a)) ≤ 16 := by rw [div_le_iff₀ (by linarith)]; linarith
  have j3 := (is_one (f := f)).div j2 (by linarith) (nov (by rw [abs_of_pos (by linarith)]; exact m2.trans (by norm_num)))
  exact ⟨_, j3, le_rnd_of_rep rep_one' m1⟩

theorem rg_exp_cf_neg {x : ℚ} {z : Bool} (h0 : x ≤ 0) (h2 : -2 ≤ x) : ∃ r, Is (exp_cf (fin x z : FV f)) r ∧ 0 ≤ r ∧ r ≤ 1 := by
  obtain ⟨a, ha, he⟩ := exp_loop_neg (f := f) (z := z) h0 h2
  obtain ⟨e1, e2⟩ := expR_neg_23 h0 h2
  have hw := wro_le f
  have he' := abs_le.1 he
  have a1 : 1 / 5 ≤ a := by linarith
  unfold exp_cf
  have q1 : -16 ≤ x / a := by rw [le_div_iff₀ (by linarith)]; linarith
  have q0 : x / a ≤ 0 := div_nonpos_of_nonpos_of_nonneg h0 (by linarith)
  have j1 := (is_fin (f := f) x z).div ha (by linarith) (nov (by rw [abs_of_nonpos q0]; exact (show _ ≤ (16:ℚ) by linarith).trans (by norm_num)))
  have r16 : Rep f (16 : ℚ) := by have := rep_pow2_nat (f := f) (n := 4); norm_num at this; exact this
  have r32 : Rep f (32 : ℚ) := by have := rep_pow2_nat (f := f) (n := 5); norm_num at this; exact this
  have k0 : rnd f (x / a) ≤ 0 := rnd_le_of_rep Rep.zero q0
  have k1 : -16 ≤ rnd f (x / a) := le_rnd_of_rep r16.neg q1
  have j2 := (is_one (f := f)).sub j1 (nov (by rw [abs_of_nonneg (by linarith)]; exact (show _ ≤ (17:ℚ) by linarith).trans (by norm_num)))
  have l0 : 1 ≤ rnd f (1 - rnd f (x / a)) := le_rnd_of_rep rep_one' (by linarith)
  have m1 : 1 / rnd f (1 - rnd f (x / a)) ≤ 1 := by rw [div_le_iff₀ (by linarith)]; linarith
  have m0 : 0 ≤ 1 / rnd f (1 - rnd f (x / a)) := by positivity
  have j3 := (is_one (f := f)).div j2 (by linarith) (nov (by rw [abs_of_nonneg m0]; exact m1.trans (by norm_num)))
  exact ⟨_, j3, rnd_nonneg m0, rnd_le_of_rep rep_one' m1⟩

theorem rg_exp_ge (hf : f.exact = false) {q : ℚ} {z : Bool} {v : FV f} (hx : Valid (fin q z : FV f)) (h0 : 0 ≤ q)
    (hv : exp (fin q z : FV f) = .ok v) : (fin 1 false : FV f) ≤ v := by
  have hu := uro_pos_real f
  have hu1 := uro_le f
  rcases lt_or_ge q 2 with h2 | h2
  · have ha : |q| = q := abs_of_nonneg h0
    rcases lt_or_ge |q| (minNormal f) with h3 | h3
    · rw [exp_tiny h3] at hv; injection hv with hv; rw [← hv]; simp
    · rw [exp_mid h3 (by rw [ha]; exact h2)] at hv
      injection hv with hv
      rw [← hv]
      obtain ⟨r, e, r1⟩ := rg_exp_cf_pos (f := f) (z := z) h0 h2.le
      exact ((is_fin 1 false).le_iff e).2 r1
  have ha : 2 ≤ |q| := by rw [abs_of_pos (by linarith)]; linarith
  obtain ⟨-, w1, w2⟩ := wholeOf_bounds q
  by_cases hW : -2 ^ 63 ≤ wholeOf q ∧ wholeOf q ≤ 2 ^ 63 - 1
  swap
  · rw [exp_large_ub hf hx ha hW] at hv; simp at hv
  rcases le_or_gt q 80 with h80 | h80
  · obtain ⟨r, e, r0, er⟩ := C33_accuracy hf q z hx (by
      have : (0:ℚ) ≤ expMin f.ty := by positivity
      linarith) (by
      have : 80 ≤ expMax f.ty := by rcases f with ⟨⟨⟩, _⟩ <;> simp [expMax]
      have : (80:ℚ) ≤ expMax f.ty := by exact_mod_cast this
      linarith)
    rw [hv] at e; injection e with e
    rw [e, fin_le]
    rw [← uro_eq] at er
    have q2 : (2:ℝ) ≤ q := by exact_mod_cast h2
    have q80 : (q:ℝ) ≤ 80 := by exact_mod_cast h80
    rw [abs_of_pos (show (0:ℝ) < q by linarith)] at er
    have E : 2 ≤ Real.exp (q:ℝ) := by have := Real.add_one_le_exp (q:ℝ); linarith
    have e1 := (abs_le.1 er).1
    have e2 : 104 * (uro f : ℝ) + ((q:ℝ) + 7) * (1 / 2 ^ 62) ≤ 1 / 10 := by
      norm_num; linarith
    have e3 := mul_le_mul_of_nonneg_right e2 (by linarith : 0 ≤ Real.exp (q:ℝ))
    have : (1:ℝ) ≤ r := by linarith
    exact_mod_cast this
  obtain ⟨w, hw⟩ := exp_large_ok hf hx ha hW
  rw [hw, Except.ok.injEq] at hv
  have hfr : |q - wholeOf q| ≤ 2 := by rw [abs_le]; constructor <;> linarith
  obtain ⟨c, c1, c2, c3, c4⟩ := exp_cf_rel (f := f) (z := w) hfr
  rw [c1, ldbl_x87 hf] at hv
  have i0 : 0 ≤ wholeOf q := by
    have : ((0 : ℤ) : ℚ) ≤ wholeOf q := by push_cast; linarith
    exact_mod_cast this
  obtain ⟨n, hn⟩ := Int.eq_ofNat_of_zero_le i0
  have he : pow_integral_llint (L GCEM_E : FV x87) (wholeOf q) = pow_integral_nonneg (L GCEM_E : FV x87) n (2 ^ 63 - 1) := by
    unfold pow_integral_llint pow_integral_compute
    rw [if_neg (by omega), hn]; rfl
  rw [he] at hv
  rcases pow_E_ge n with h | ⟨p, zz, h, p1, p2⟩
  · rw [h] at hv
    rw [← hv, show cast f (inf false : FV x87) = inf false from rfl, inf_mul_pos c3]; simp
  rw [h] at hv
  have pp : 0 < p := lt_of_lt_of_le (by positivity) p1
  change mk f p zz * _ = _ at hv
  rcases ho : overflows f (rnd f p) with _ | _
  swap
  · have : mk f p zz = inf false := by
      unfold mk
      simp only [ho, if_true]
      simp; exact pp.le
    rw [this, inf_mul_pos c3] at hv
    rw [← hv]; simp
  rw [mk_nn pp.le (fun h => absurd h pp.ne') ho, fin_mul] at hv
  rw [← hv]
  refine rg_le_mk rep_one' zero_le_one ?_
  have n70 : 70 ≤ n := by
    have h1 : ((70 : ℤ) : ℚ) < wholeOf q := by push_cast; linarith
    have h2 : (70:ℤ) < wholeOf q := by exact_mod_cast h1
    omega
  have p64 : 64 ≤ p := by
    refine le_trans ?_ p1
    have h1 : (271828 / 100000 : ℚ) ^ 70 ≤ (271828 / 100000 : ℚ) ^ n := pow_le_pow_right₀ (by norm_num) n70
    exact le_trans (by norm_num) h1
  have r64 : Rep f (64 : ℚ) := by have := rep_pow2_nat (f := f) (n := 6); norm_num at this; exact this
  have p64' : 64 ≤ rnd f p := le_rnd_of_rep r64 p64
  have c16 : 1 / 16 ≤ c := by
    have A : 1 / 9 ≤ Real.exp ((q - wholeOf q : ℚ) : ℝ) := by
      have h1 : Real.exp (-2) ≤ Real.exp ((q - wholeOf q : ℚ) : ℝ) := by
        apply Real.exp_le_exp.2
        have := (Rat.cast_le (K := ℝ)).2 (abs_le.1 hfr).1
        push_cast at this ⊢; exact this
      have h2 := exp_two_le
      rw [Real.exp_neg] at h1
      have h3 : (739 / 100 : ℝ)⁻¹ ≤ (Real.exp 2)⁻¹ := inv_anti₀ (Real.exp_pos 2) h2
      refine le_trans ?_ (h3.trans h1)
      norm_num
    have B := c4.ge
    have : (1 / 16 : ℝ) ≤ c := by
      have : (1012 / 10 * (uro f : ℝ) + 11 / 10 ^ 19) ≤ 1 / 10 := by linarith
      nlinarith
    exact_mod_cast (by push_cast; exact this : ((1 / 16 : ℚ) : ℝ) ≤ (c:ℝ))
  nlinarith

theorem rg_exp_le (hf : f.exact = false) {q : ℚ} {z : Bool} {v : FV f} (hx : Valid (fin q z : FV f)) (h0 : q ≤ 0)
    (hv : exp (fin q z : FV f) = .ok v) : ∃ r : ℚ, Is v r ∧ 0 ≤ r ∧ r ≤ 1 := by
  have hu := uro_pos_real f
  have hu1 := uro_le f
  rcases lt_or_ge (-2) q with h2 | h2
  · have ha : |q| = -q := abs_of_nonpos h0
    rcases lt_or_ge |q| (minNormal f) with h3 | h3
    · rw [exp_tiny h3] at hv; injection hv with hv; rw [← hv]; exact ⟨1, is_fin _ _, zero_le_one, le_rfl⟩
    · rw [exp_mid h3 (by rw [ha]; linarith)] at hv
      injection hv with hv
      rw [← hv]
      exact rg_exp_cf_neg (f := f) (z := z) h0 h2.le
  rcases le_or_gt (-80) q with h80 | h80
  · obtain ⟨r, e, r0, er⟩ := C33_accuracy hf q z hx (by
      have : 80 ≤ expMin f.ty := by rcases f with ⟨⟨⟩, _⟩ <;> simp [expMin]
      have : (80:ℚ) ≤ expMin f.ty := by exact_mod_cast this
      linarith) (by
      have : (0:ℚ) ≤ expMax f.ty := by positivity
      linarith)
    rw [hv] at e; injection e with e
    refine ⟨r, by rw [e]; exact is_fin _ _, r0.le, ?_⟩
    rw [← uro_eq] at er
    have q2 : (q:ℝ) ≤ -2 := by exact_mod_cast h2
    have q80 : (-80:ℝ) ≤ q := by exact_mod_cast h80
    rw [abs_of_neg (show (q:ℝ) < 0 by linarith)] at er
    have E : Real.exp (q:ℝ) ≤ 1 / 2 := by
      have := Real.add_one_le_exp (-q:ℝ)
      rw [Real.exp_neg] at this
      have h3 : (2:ℝ) ≤ (Real.exp (q:ℝ))⁻¹ := by linarith
      have h4 := inv_anti₀ (by norm_num) h3
      rw [inv_inv] at h4
      linarith
    have e1 := (abs_le.1 er).2
    have e2 : 104 * (uro f : ℝ) + (-(q:ℝ) + 7) * (1 / 2 ^ 62) ≤ 1 / 10 := by
      norm_num; linarith
    have e3 := mul_le_mul_of_nonneg_right e2 (Real.exp_pos (q:ℝ)).le
    have : (r:ℝ) ≤ 1 := by linarith
    exact_mod_cast this
  · obtain ⟨c, c0, c8, p, p0, p1, e⟩ := exp_neg_le hf hx (by linarith) hv (n := 79) (by push_cast; linarith)
      (b := 1 / 2 ^ 10) (by unfold Rep; decide +kernel) (by norm_num) (by norm_num) (Or.inl (by norm_num))
    refine ⟨_, by rw [e]; exact is_fin _ _, rnd_nonneg (mul_nonneg (rnd_nonneg p0) c0.le), ?_⟩
    refine rnd_le_of_rep rep_one' ?_
    have : rnd f p ≤ 1 / 16 := rnd_le_of_rep (by unfold Rep; rcases f with ⟨⟨⟩, ⟨⟩⟩ <;> decide +kernel) (p1.trans (by norm_num))
    have := rnd_nonneg (f := f) p0
    nlinarith

/-- C96: wherever it is defined, `exp(x) >= 1` for `x >= 0` and `0 <= exp(x) <= 1` for `x <= 0`, infinities included. -/
theorem C96_exp (hf : f.exact = false) (x v : FV f) (hx : Valid x) (hv : exp x = .ok v) :
    (i 0 ≤ x → i 1 ≤ v) ∧ (x ≤ i 0 → i 0 ≤ v ∧ v ≤ i 1) := by
  rw [i_zero, i_one]
  cases x with
  | nan => exact ⟨fun h => absurd h le_nan, fun h => absurd h nan_le⟩
  | inf s =>
    cases s
    · have : exp (inf false : FV f) = .ok (inf false) := C30_special.2.2.1
      rw [this] at hv; injection hv with hv; rw [← hv]; simp
    · have : exp (inf true : FV f) = .ok (fin 0 false) := C30_special.2.1
      rw [this] at hv; injection hv with hv; rw [← hv]; simp
  | fin q z =>
    refine ⟨fun h => rg_exp_ge hf hx (by rwa [fin_le] at h) hv, fun h => ?_⟩
    obtain ⟨r, e, r0, r1⟩ := rg_exp_le hf hx (by rwa [fin_le] at h) hv
    exact ⟨((is_fin 0 false).le_iff e).2 r0, (e.le_iff (is_fin 1 false)).2 r1⟩

/-- the difference of a value that is at least 1 and one that is at most 1 -/
theorem rg_sub_nonneg {a b : FV f} (ha : (fin 1 false : FV f) ≤ a) {r : ℚ} (hb : Is b r) (r1 : r ≤ 1) : (fin 0 false : FV f) ≤ a - b := by
  obtain ⟨w, rfl⟩ := hb
  cases a with
  | nan => exact absurd ha le_nan
  | inf s => rw [fin_le_inf] at ha; subst ha; show _ ≤ inf false; simp
  | fin q z =>
    rw [fin_le] at ha
    rw [fin_sub]
    exact rg_le_mk Rep.zero le_rfl (by linarith)

theorem rg_half_nonneg {a : FV f} (ha : (fin 0 false : FV f) ≤ a) : (fin 0 false : FV f) ≤ a / i 2 := by
  rw [i_two]
  cases a with
  | nan => exact absurd ha le_nan
  | inf s =>
    rw [fin_le_inf] at ha; subst ha
    have : (inf false : FV f) / fin 2 false = inf false := by
      change FV.div _ _ = _
      simp [FV.div, sign]
    rw [this]; simp
  | fin q z =>
    rw [fin_le] at ha
    rw [fin_div (by norm_num)]
    exact rg_le_mk Rep.zero le_rfl (by linarith)

/-- C96: `sinh(x) >= 0` for every `x >= 0` where it is defined, infinity included (the oddness C49 gives the other half). -/
theorem C96_sinh (hf : f.exact = false) (x v : FV f) (hx : Valid x) (h0 : i 0 ≤ x) (hv : sinh x = .ok v) : i 0 ≤ v := by
  rw [i_zero] at h0 ⊢
  rw [sinh_def] at hv
  cases x with
  | nan => exact absurd h0 le_nan
  | inf s =>
    rw [fin_le_inf] at h0; subst h0
    have e1 : exp (inf false : FV f) = .ok (inf false) := C30_special.2.2.1
    have e2 : exp (-(inf false) : FV f) = .ok (fin 0 false) := C30_special.2.1
    rw [e1, e2] at hv
    split_ifs at hv with h1 h2
    · simp at h1
    · injection hv with hv; rw [← hv, i_zero]; simp
    · injection hv with hv; rw [← hv]
      exact rg_half_nonneg (rg_sub_nonneg (by simp) (is_fin 0 false) zero_le_one)
  | fin q z =>
    rw [fin_le] at h0
    split_ifs at hv with h1 h2
    · simp at h1
    · injection hv with hv; rw [← hv, i_zero]; simp
    · cases e1 : exp (fin q z : FV f) with
      | error u => rw [e1] at hv; cases hv
      | ok a =>
        cases e2 : exp (-(fin q z) : FV f) with
        | error u => rw [e1, e2] at hv; cases hv
        | ok b =>
          rw [e1, e2] at hv
          injection hv with hv
          rw [← hv]
          have a1 := rg_exp_ge hf hx h0 e1
          rw [neg_fin] at e2
          have hxn := hx.neg
          rw [neg_fin] at hxn
          obtain ⟨r, er, r0, r1⟩ := rg_exp_le hf hxn (by linarith) e2
          exact rg_half_nonneg (rg_sub_nonneg a1 er r1)

/-- C96: `log` is positive above 1, zero at 1 and negative on `[1/2, 1)`: no value next to 1 is mistaken for 1. -/
theorem C96_log (hf : f.exact = false) (q : ℚ) (z : Bool) (hx : Valid (fin q z : FV f)) (h : 1 / 2 ≤ q) :
    ∃ r w, log (fin q z : FV f) = .ok (fin r w) ∧ (0 < r ↔ 1 < q) ∧ (r = 0 ↔ q = 1) ∧ (r < 0 ↔ q < 1) := by
  have hu := uro_pos_real f
  have hu1 := uro_le f
  suffices H : ∃ r w, log (fin q z : FV f) = .ok (fin r w) ∧ (1 < q → 0 < r) ∧ (q = 1 → r = 0) ∧ (q < 1 → r < 0) by
    obtain ⟨r, w, e, a, b, c⟩ := H
    refine ⟨r, w, e, ⟨fun h' => ?_, a⟩, ⟨fun h' => ?_, b⟩, ⟨fun h' => ?_, c⟩⟩
    · by_contra hc
      rcases (not_lt.1 hc).lt_or_eq with g | g
      · exact absurd (c g) (by linarith)
      · exact absurd (b g) (by linarith)
    · rcases lt_trichotomy q 1 with g | g | g
      · exact absurd (c g) (by linarith)
      · exact g
      · exact absurd (a g) (by linarith)
    · by_contra hc
      rcases (not_lt.1 hc).lt_or_eq with g | g
      · exact absurd (a g) (by linarith)
      · exact absurd (b g.symm) (by linarith)
  rcases le_or_gt q (3 / 2) with h2 | h2
  · obtain ⟨r, w, e, er⟩ := C37_direct_range hf q z hx h h2
    rw [← uro_eq] at er
    refine ⟨r, w, e, fun g => ?_, fun g => ?_, fun g => ?_⟩
    · have L : 0 < Real.log q := Real.log_pos (by exact_mod_cast g)
      rw [abs_of_pos L] at er
      have := (abs_le.1 er).1
      have : (0:ℝ) < r := by nlinarith
      exact_mod_cast this
    · rw [g] at er
      simp at er
      exact er
    · have L : Real.log q < 0 := Real.log_neg (by exact_mod_cast (show 0 < q by linarith)) (by exact_mod_cast g)
      rw [abs_of_neg L] at er
      have := (abs_le.1 er).2
      have : (r:ℝ) < 0 := by nlinarith
      exact_mod_cast this
  · obtain ⟨r, w, e, er⟩ := C37_ge_one hf q z hx (by linarith)
    rw [← uro_eq] at er
    refine ⟨r, w, e, fun g => ?_, fun g => by linarith, fun g => by linarith⟩
    have L : 1 / 3 ≤ Real.log q := by
      have h3 := Real.one_sub_inv_le_log_of_pos (show (0:ℝ) < q by exact_mod_cast (show 0 < q by linarith))
      have h4 : ((q:ℝ))⁻¹ ≤ (3 / 2 : ℝ)⁻¹ := inv_anti₀ (by norm_num) (by
        have := (Rat.cast_le (K := ℝ)).2 h2.le
        push_cast at this; exact this)
      norm_num at h4
      linarith
    have := (abs_le.1 er).1
    have : (0:ℝ) < r := by nlinarith
    exact_mod_cast this

/-- C96: `log` is negative for every normal value below 1/2 outside a `1e-5` neighbourhood of `0.1` as well. -/
theorem C96_log_small (hf : f.exact = false) (q : ℚ) (z : Bool) (hx : Valid (fin q z : FV f)) (hmn : minNormal f ≤ q) (h : q < 1 / 2)
    (h10 : 1 / 100000 < |q - 1 / 10|) : ∃ r w, log (fin q z : FV f) = .ok (fin r w) ∧ r < 0 := by
  have hu := uro_pos_real f
  have hu1 := uro_le f
  obtain ⟨r, w, j, e, er, hj1, hj⟩ := C37_small hf q z hx hmn h
  rw [← uro_eq] at er
  refine ⟨r, w, e, ?_⟩
  have q0 : 0 < q := lt_of_lt_of_le (minNormal_pos f) hmn
  have qr : (0:ℝ) < q := by exact_mod_cast q0
  have l10 : Real.log 10 ≤ 24 / 10 := by
    rw [show (10:ℝ) = 2 ^ 3 * (5 / 4) by norm_num, Real.log_mul (by norm_num) (by norm_num), Real.log_pow]
    have a := Real.log_two_lt_d9
    have b := Real.log_le_sub_one_of_pos (show (0:ℝ) < 5 / 4 by norm_num)
    push_cast
    linarith
  have l10' : 0 < Real.log 10 := Real.log_pos (by norm_num)
  have L : Real.log q ≤ -(1 / 2) := by
    have h3 := Real.log_le_sub_one_of_pos qr
    have h4 : (q:ℝ) < 1 / 2 := by
      have := (Rat.cast_lt (K := ℝ)).2 h
      push_cast at this; exact this
    linarith
  have key : Real.log q + j * Real.log 10 ≤ Real.log q / 10 := by
    by_cases hA : ∀ e : ℤ, 1 / 10000 * (10:ℚ) ^ e < |q - 10 ^ e|
    · rw [hj hA]; push_cast; linarith
    · push Not at hA
      obtain ⟨k, hk⟩ := hA
      have hk' := abs_le.1 hk
      have pk : (0:ℚ) < 10 ^ k := by positivity
      have k2 : k ≤ -2 := by
        by_contra hc
        push Not at hc
        rcases (show k = -1 ∨ 0 ≤ k by omega) with g | g
        · rw [g] at hk
          norm_num at hk h10
          linarith
        · have : (1:ℚ) ≤ 10 ^ k := one_le_zpow₀ (by norm_num) g
          linarith
      have : (10:ℚ) ^ k ≤ 10 ^ (-2:ℤ) := zpow_le_zpow_right₀ (by norm_num) k2
      norm_num at this
      have q2 : q ≤ 1 / 64 := by linarith
      have L2 : Real.log q ≤ -4 := by
        have h4 : (q:ℝ) ≤ 1 / 2 ^ 6 := by
          have := (Rat.cast_le (K := ℝ)).2 q2
          push_cast at this; norm_num; linarith
        have h5 := Real.log_le_log qr h4
        rw [Real.log_div (by norm_num) (by norm_num), Real.log_one, Real.log_pow] at h5
        have a := Real.log_two_gt_d9
        push_cast at h5
        linarith
      rcases hj1 with g | g | g <;> rw [g] <;> push_cast <;> linarith
  have la : |Real.log q| = -Real.log q := abs_of_neg (by linarith)
  rw [la] at er
  have := (abs_le.1 er).2
  have : (r:ℝ) < 0 := by nlinarith
  exact_mod_cast this

/-- C96: wherever it is defined, `expm1(x) >= 0` for `x >= 0` and `-1 <= expm1(x) <= 0` for `x <= 0`. -/
theorem C96_expm1 (hf : f.exact = false) (q : ℚ) (z : Bool) (v : FV f) (hx : Valid (fin q z : FV f)) (hv : expm1 (fin q z : FV f) = .ok v) :
    (0 ≤ q → i 0 ≤ v) ∧ (q ≤ 0 → i (-1) ≤ v ∧ v ≤ i 0) := by
  have hu := uro_pos_real f
  have hu1 := uro_le f
  have im : Is (i (-1) : FV f) (-1) := by
    have := is_i (f := f) (n := -1) (by norm_num)
    push_cast at this; exact this
  rw [i_zero]
  by_cases h : fabs (fin q z : FV f) > d 1e-4
  · rw [expm1_large h] at hv
    cases e1 : exp (fin q z : FV f) with
    | error u => rw [e1] at hv; cases hv
    | ok a =>
      rw [e1] at hv
      injection hv with hv
      rw [← hv]
      constructor
      · intro h0
        exact rg_sub_nonneg (rg_exp_ge hf hx h0 e1) is_one le_rfl
      · intro h0
        obtain ⟨r, er, r0, r1⟩ := rg_exp_le hf hx h0 e1
        have j := er.sub (is_one (f := f)) (nov (by rw [abs_of_nonpos (by linarith)]; exact (show _ ≤ (1:ℚ) by linarith).trans (by norm_num)))
        exact ⟨(im.le_iff j).2 (le_rnd_of_rep rep_one'.neg (by linarith)), (j.le_iff (is_fin 0 false)).2 (rnd_le_of_rep Rep.zero (by linarith))⟩
  · have h' : fabs (fin q z : FV f) ≤ d 1e-4 := by
      obtain ⟨w, hw⟩ := fabs_fin' (f := f) q z
      rw [hw] at h ⊢
      have : ∃ c : ℚ, (d 1e-4 : FV f) = fin c false := by
        obtain ⟨ty, ex⟩ := f; cases (show ex = false from hf)
        cases ty
        · exact ⟨13743895 / 137438953472, by decide +kernel⟩
        · exact ⟨7378697629483821 / 73786976294838206464, by decide +kernel⟩
        · exact ⟨7378697629483821 / 73786976294838206464, by decide +kernel⟩
      obtain ⟨c, hc⟩ := this
      rw [hc] at h ⊢
      rw [gt_iff, fin_lt] at h
      rw [fin_le]
      exact not_lt.1 h
    have hs := (small_range h').1
    obtain ⟨r, w, e, er⟩ := C34_accuracy hf q z hx h'
    rw [hv] at e; injection e with e
    rw [e, ← uro_eq] at *
    have hsr : |(q:ℝ)| ≤ 1 / 9999 := by have := (Rat.cast_le (K := ℝ)).2 hs; push_cast at this; exact this
    have hE := Real.abs_exp_sub_one_le (x := (q:ℝ)) (by linarith)
    constructor
    · intro h0
      have E : 1 ≤ Real.exp (q:ℝ) := Real.one_le_exp (by exact_mod_cast h0)
      rw [abs_of_nonneg (show 0 ≤ Real.exp (q:ℝ) - 1 by linarith)] at er
      have := (abs_le.1 er).1
      have : (0:ℝ) ≤ r := by nlinarith
      rw [fin_le]; exact_mod_cast this
    · intro h0
      have E : Real.exp (q:ℝ) ≤ 1 := Real.exp_le_one_iff.2 (by exact_mod_cast h0)
      rw [abs_of_nonpos (show Real.exp (q:ℝ) - 1 ≤ 0 by linarith)] at er hE
      have h1 := (abs_le.1 er).2
      have h2 := (abs_le.1 er).1
      have a : (r:ℝ) ≤ 0 := by nlinarith
      have b : (-1:ℝ) ≤ r := by nlinarith
      refine ⟨(im.le_iff (is_fin r w)).2 (by exact_mod_cast b), ?_⟩
      rw [fin_le]; exact_mod_cast a

/-- C96: `cosh(x) >= 1` for every `x` with `|x| >= 1/100` up to the range of C64. -/
theorem C96_cosh (hf : f.exact = false) (x : ℚ) (z : Bool) (hx : Valid (fin x z : FV f)) (h1 : 1 / 100 ≤ |x|) (h : |x| ≤ expMin f.ty) :
    ∃ c w, cosh (fin x z : FV f) = .ok (fin c w) ∧ 1 ≤ c := by
  have hu := uro_pos_real f
  have hu1 := uro_le f
  obtain ⟨-, -, c, w, -, e, -, er⟩ := C64_accuracy hf x z hx h
  rw [← uro_eq] at er
  refine ⟨c, w, e, ?_⟩
  have h1r : (1 / 100 : ℝ) ≤ |(x:ℝ)| := by have := (Rat.cast_le (K := ℝ)).2 h1; push_cast at this; exact this
  have hm : |x| ≤ 11400 := by
    have : expMin f.ty ≤ 11400 := by rcases f with ⟨⟨⟩, _⟩ <;> simp [expMin]
    exact h.trans (by exact_mod_cast this)
  have hmr : |(x:ℝ)| ≤ 11400 := by have := (Rat.cast_le (K := ℝ)).2 hm; push_cast at this; exact this
  have C : 1 + 1 / 20000 ≤ Real.cosh (x:ℝ) := by
    rw [← Real.cosh_abs]
    obtain ⟨y, hy⟩ : ∃ y : ℝ, |(x:ℝ)| = 2 * y := ⟨|(x:ℝ)| / 2, by ring⟩
    rw [hy] at h1r ⊢
    rw [Real.cosh_two_mul, Real.cosh_sq]
    have := Real.self_le_sinh_iff.2 (show 0 ≤ y by linarith)
    nlinarith
  have e2 : 1061 / 10 * (uro f : ℝ) + (|(x:ℝ)| + 7) * (1 / 2 ^ 62) ≤ 1 / 100000 := by
    norm_num; linarith
  have e3 := mul_le_mul_of_nonneg_right e2 (by linarith : 0 ≤ Real.cosh (x:ℝ))
  have := (abs_le.1 er).1
  have : (1:ℝ) ≤ c := by linarith
  exact_mod_cast this

/-! ## erf -/

theorem rg_erfR_le {x : ℝ} (x0 : 1 ≤ x) : 2 * (Real.exp (-x ^ 2) / (17725 / 10000)) / (2 * x + 1 / x) ≤ 1 - erfR x := by
  rw [erfR_eq_tail]
  have hs : Real.sqrt Real.pi ≤ 17725 / 10000 := by
    apply Real.sqrt_le_iff.2
    have := Real.pi_lt_d6
    constructor
    · norm_num
    · norm_num; linarith
  have sp : 0 < Real.sqrt Real.pi := Real.sqrt_pos.2 Real.pi_pos
  have h1 := ecR_rec 1 le_rfl x
  have h2 := ecR_ge 2 (by norm_num) x
  have h3 : ecR 1 x ≤ 2 * x + 1 / x := by
    rw [h1]
    have : 2 * ((1:ℕ):ℝ) / ecR (1 + 1) x ≤ 1 / x := by
      rw [div_le_div_iff₀ (ecR_pos _ _) (by linarith)]
      push_cast; norm_num; linarith
    linarith
  have hE := Real.exp_pos (-x ^ 2)
  have p := ecR_pos 1 x
  have k1 : Real.exp (-x ^ 2) / (17725 / 10000) ≤ Real.exp (-x ^ 2) / Real.sqrt Real.pi := div_le_div_of_nonneg_left hE.le sp hs
  have k2 : 2 * (Real.exp (-x ^ 2) / (17725 / 10000)) / (2 * x + 1 / x) ≤ 2 * (Real.exp (-x ^ 2) / Real.sqrt Real.pi) / ecR 1 x :=
    div_le_div₀ (by positivity) (by linarith) p h3
  linarith

theorem rg_exp4 : Real.exp 4 ≤ 545982 / 10000 := by
  have h := Real.exp_one_lt_d9
  rw [show (4:ℝ) = (4:ℕ) * 1 by norm_num, Real.exp_nat_mul]
  refine (pow_le_pow_left₀ (Real.exp_pos 1).le h.le 4).trans ?_
  norm_num

theorem rg_erf_198 : 99 / 20000 ≤ 1 - erfR (198 / 100) := by
  refine le_trans ?_ (rg_erfR_le (by norm_num))
  have h : (1 / (506 / 10) : ℝ) ≤ Real.exp (-(198 / 100) ^ 2) := by
    have h1 : Real.exp ((198 / 100) ^ 2) ≤ 506 / 10 := by
      have e : ((198 / 100) ^ 2 : ℝ) = 4 - 796 / 10000 := by norm_num
      rw [e, Real.exp_sub]
      have h2 := Real.add_one_le_exp (796 / 10000 : ℝ)
      rw [div_le_iff₀ (Real.exp_pos _)]
      have := rg_exp4
      nlinarith
    rw [Real.exp_neg, ← one_div]
    exact one_div_le_one_div_of_le (Real.exp_pos _) h1
  rw [le_div_iff₀ (by norm_num)]
  norm_num at h ⊢
  linarith

theorem rg_erf_21 : 1 / 1000 ≤ 1 - erfR (2100001 / 1000000) := by
  refine le_trans ?_ (rg_erfR_le (by norm_num))
  have h : (1 / 162 : ℝ) ≤ Real.exp (-(2100001 / 1000000) ^ 2) := by
    have h1 : Real.exp ((2100001 / 1000000) ^ 2) ≤ 162 := by
      have e : Real.exp ((2100001 / 1000000) ^ 2) ≤ Real.exp (4 + 1) := Real.exp_le_exp.2 (by norm_num)
      rw [Real.exp_add] at e
      have := Real.exp_one_lt_d9
      have := rg_exp4
      nlinarith [Real.exp_pos 1]
    rw [Real.exp_neg, ← one_div]
    exact one_div_le_one_div_of_le (Real.exp_pos _) h1
  rw [le_div_iff₀ (by norm_num)]
  norm_num at h ⊢
  linarith

/-- C96: `0 <= erf(x) <= 1` for `x >= 0` and `-1 <= erf(x) <= 0` for `x <= 0`, for every `x` with `|x| <= 2^31`, except
that nothing is claimed in `float` for `1.98 < |x| <= 2.100001`. -/
theorem C96_erf (hf : f.exact = false) (x : ℚ) (z : Bool) (hx : Valid (fin x z : FV f)) (h2 : |x| ≤ 2 ^ 31)
    (hfl : f.ty = .float → |x| ≤ 198 / 100 ∨ 2100001 / 1000000 < |x|) :
    ∃ r, erf (fin x z : FV f) = .ok (fin r false) ∧ |r| ≤ 1 ∧ (0 ≤ x → 0 ≤ r) ∧ (x ≤ 0 → r ≤ 0) := by
  have hu := uro_pos_real f
  have hu1 := uro_le f
  rcases lt_or_ge |x| (minNormal f) with hm | hm
  · exact ⟨0, C51_special.2.2.2 x z hm, by norm_num, fun _ => le_rfl, fun _ => le_rfl⟩
  obtain ⟨r, e, er⟩ := C71_accuracy hf x z hx hm h2
  rw [← uro_eq] at er
  have hK : (erfK |x| : ℝ) * uro f ≤ 1 / 100 := by
    have : erfK |x| ≤ 80600 := by unfold erfK; split_ifs <;> norm_num
    have : (erfK |x| : ℝ) ≤ 80600 := by exact_mod_cast this
    nlinarith
  have hK0 : (0:ℝ) ≤ erfK |x| := by
    have : 0 ≤ erfK |x| := by unfold erfK; split_ifs <;> norm_num
    exact_mod_cast this
  have e0 : erfR 0 = 0 := erfR_zero
  have habs : |erfR (x:ℝ)| = erfR |(x:ℝ)| := by
    rcases le_total 0 (x:ℝ) with g | g
    · have := erfR_mono g; rw [e0] at this
      rw [abs_of_nonneg g, abs_of_nonneg this]
    · have := erfR_mono g; rw [e0] at this
      rw [abs_of_nonpos g, abs_of_nonpos this, erfR_neg]
  have E1 := erfR_lt_one |(x:ℝ)|
  have E0 : 0 ≤ erfR |(x:ℝ)| := by have := erfR_mono (abs_nonneg (x:ℝ)); rwa [e0] at this
  refine ⟨r, e, ?_, ?_, ?_⟩
  · rcases le_or_gt |x| (2100001 / 1000000) with hb | hb
    · have main : (erfK |x| : ℝ) * uro f * erfR |(x:ℝ)| ≤ 1 - erfR |(x:ℝ)| := by
        rcases le_or_gt |x| (198 / 100) with hc | hc
        · have hcr : |(x:ℝ)| ≤ 198 / 100 := by have := (Rat.cast_le (K := ℝ)).2 hc; push_cast at this; exact this
          have a1 := erfR_mono hcr
          have a2 := rg_erf_198
          have a3 : (erfK |x| : ℝ) * uro f ≤ 4805 / 1000000 := by
            have : erfK |x| ≤ 80600 := by unfold erfK; split_ifs <;> norm_num
            have : (erfK |x| : ℝ) ≤ 80600 := by exact_mod_cast this
            nlinarith
          have a4 := mul_le_mul_of_nonneg_right a3 E0
          nlinarith
        · have ht : f.ty ≠ .float := fun g => by
            rcases hfl g with g | g <;> linarith
          have hbr : |(x:ℝ)| ≤ 2100001 / 1000000 := by have := (Rat.cast_le (K := ℝ)).2 hb; push_cast at this; exact this
          have a1 := erfR_mono hbr
          have a2 := rg_erf_21
          have u53 : (uro f : ℝ) ≤ 1 / 2 ^ 53 := by
            rw [uro_eq]
            have : 53 ≤ f.prec := by
              rcases f with ⟨⟨⟩, _⟩
              · exact absurd rfl ht
              · exact Nat.le_refl 53
              · exact (by decide : 53 ≤ 64)
            exact one_div_le_one_div_of_le (by positivity) (pow_le_pow_right₀ (by norm_num) this)
          have a3 : (erfK |x| : ℝ) * uro f ≤ 1 / 10000 := by
            have : erfK |x| ≤ 80600 := by unfold erfK; split_ifs <;> norm_num
            have : (erfK |x| : ℝ) ≤ 80600 := by exact_mod_cast this
            calc (erfK |x| : ℝ) * uro f ≤ 80600 * (1 / 2 ^ 53) := mul_le_mul this u53 hu.le (by norm_num)
              _ ≤ _ := by norm_num
          have a4 := mul_le_mul_of_nonneg_right a3 E0
          nlinarith
      rw [habs] at er
      have : |(r:ℝ)| ≤ 1 := by
        have h3 : |(r:ℝ)| ≤ |(r:ℝ) - erfR x| + |erfR (x:ℝ)| := by
          have := abs_add_le ((r:ℝ) - erfR x) (erfR x)
          rwa [sub_add_cancel] at this
        rw [habs] at h3
        linarith
      exact_mod_cast this
    · rcases le_total 0 x with g | g
      · rw [abs_of_nonneg g] at hb h2
        obtain ⟨r', e', r0, r1, -⟩ := C71_range_large hf x z hx hb h2
        rw [e] at e'
        injection e' with e'; injection e' with e' _
        rw [e', abs_of_pos r0]; exact r1
      · rw [abs_of_nonpos g] at hb h2
        have hxn := hx.neg
        rw [neg_fin] at hxn
        obtain ⟨r', e', r0, r1, -⟩ := C71_range_large hf (-x) _ hxn hb h2
        have ho := (C51_odd (fin x z : FV f)).1 (by rw [limMin_gt_fabs, not_lt]; exact hm)
        rw [e, neg_fin, e'] at ho
        injection ho with ho
        rw [neg_fin] at ho
        injection ho with ho _
        rw [show r = -r' by linarith, abs_neg, abs_of_pos r0]; exact r1
  · intro g
    have gr : (0:ℝ) ≤ x := by exact_mod_cast g
    have h3 : 0 ≤ erfR (x:ℝ) := by have := erfR_mono gr; rwa [e0] at this
    rw [abs_of_nonneg h3] at er
    have := (abs_le.1 er).1
    have : (0:ℝ) ≤ r := by nlinarith
    exact_mod_cast this
  · intro g
    have gr : (x:ℝ) ≤ 0 := by exact_mod_cast g
    have h3 : erfR (x:ℝ) ≤ 0 := by have := erfR_mono gr; rwa [e0] at this
    rw [abs_of_nonpos h3] at er
    have := (abs_le.1 er).2
    have : (r:ℝ) ≤ 0 := by nlinarith
    exact_mod_cast this

/-- C96 is FALSE for the probability computed by `incomplete_gamma` in `float`: it exceeds 1. -/
theorem C96_incomplete_gamma_exceeds :
    incomplete_gamma (fin (1 / 4) false : FV binary32) (fin 7 false) = .ok (fin (8388729 / 8388608) false) ∧
    incomplete_gamma (fin (5 / 4) false : FV binary32) (fin 11 false) = .ok (fin (8389955 / 8388608) false) ∧
    (1 : ℚ) < 8388729 / 8388608 ∧ (1:ℚ) < 8389955 / 8388608 := by
  refine ⟨by decide +kernel, by decide +kernel, by norm_num, by norm_num⟩

/-! ## the hypotheses are met -/

example : ∃ r, sqrt (fin 1000001 false : FV binary64) = .ok r ∧ i 1 ≤ r :=
  C96_sqrt rfl _ (by decide +kernel) (by decide +kernel)

example : ∃ r, hypot (fin (-3) false : FV binary32) (fin 4 false) = .ok r ∧ fin 3 false ≤ r := by
  have := C96_hypot (f := binary32) rfl (-3) 4 false false (by decide +kernel) (by decide +kernel) (by decide +kernel)
  simpa using this

/-- the least `float` above zero and a large argument -/
example (v : FV binary32) (hv : exp (fin (1 / 2 ^ 149) false : FV binary32) = .ok v) : i 1 ≤ v :=
  (C96_exp rfl _ v (by decide +kernel) hv).1 (by decide +kernel)

example : ∃ v : FV binary32, exp (fin (-50) false : FV binary32) = .ok v ∧ i 0 ≤ v ∧ v ≤ i 1 := by
  obtain ⟨v, hv⟩ : ∃ v, exp (fin (-50) false : FV binary32) = .ok v := by
    obtain ⟨r, e, -⟩ := C33_accuracy (f := binary32) rfl (-50) false (by decide +kernel) (by norm_num [expMin, binary32]) (by norm_num [expMax, binary32])
    exact ⟨_, e⟩
  exact ⟨v, hv, (C96_exp rfl _ v (by decide +kernel) hv).2 (by decide +kernel)⟩

example (v : FV binary32) (hv : sinh (fin (1 / 2) false : FV binary32) = .ok v) : i 0 ≤ v :=
  C96_sinh rfl _ v (by decide +kernel) (by decide +kernel) hv

example : sinh (fin (1 / 2) false : FV binary32) = .ok (fin (68301 / 131072) false) := by decide +kernel

/-- the value just below 1 -/
example : ∃ r w, log (fin (1 - 1 / 2 ^ 53) false : FV binary64) = .ok (fin r w) ∧ r < 0 := by
  obtain ⟨r, w, e, -, -, h⟩ := C96_log (f := binary64) rfl (1 - 1 / 2 ^ 53) false (by decide +kernel) (by norm_num)
  exact ⟨r, w, e, h.2 (by norm_num)⟩

example : ∃ r w, log (fin (1 / 2 ^ 60) false : FV binary64) = .ok (fin r w) ∧ r < 0 :=
  C96_log_small rfl _ _ (by decide +kernel) (by decide +kernel) (by norm_num) (by rw [abs_of_neg (by norm_num)]; norm_num)

example : ∃ v : FV binary64, expm1 (fin (-1 / 2 ^ 20) false : FV binary64) = .ok v ∧ i (-1) ≤ v ∧ v ≤ i 0 := by
  obtain ⟨r, w, e, -⟩ := C34_accuracy (f := binary64) rfl (-1 / 2 ^ 20) false (by decide +kernel) (by decide +kernel)
  exact ⟨_, e, (C96_expm1 rfl _ _ _ (by decide +kernel) e).2 (by norm_num)⟩

example : ∃ c w, cosh (fin (1 / 64) false : FV binary32) = .ok (fin c w) ∧ 1 ≤ c :=
  C96_cosh rfl _ _ (by decide +kernel) (by rw [abs_of_pos] <;> norm_num) (by rw [abs_of_pos] <;> norm_num [expMin, binary32])

example : ∃ r, erf (fin (-17 / 8) false : FV binary64) = .ok (fin r false) ∧ |r| ≤ 1 ∧ r ≤ 0 := by
  obtain ⟨r, e, h1, -, h2⟩ := C96_erf (f := binary64) rfl (-17 / 8) false (by decide +kernel) (by rw [abs_of_neg] <;> norm_num) (fun h => by cases h)
  exact ⟨r, e, h1, h2 (by norm_num)⟩

end Gcem.Props
