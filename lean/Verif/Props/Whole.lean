import Verif.Props.Cross
import Verif.Props.SqrtExact
import Verif.Props.Log2Acc
import Verif.Props.BetaAcc

/-! # C98: whole numbers recovered from computed results -/

namespace Gcem.Props
open FV

variable {f : Fmt}

theorem wh_round (hf : f.exact = false) {g : ℚ} {z : Bool} {N : ℕ} (hv : Valid (fin g z : FV f)) (h : |(g:ℝ) - N| < 1 / 2) (hN : 1 ≤ N) :
    round (fin g z : FV f) = .ok (fin N false) := by
  have kq : |g - N| < 1 / 2 := by
    refine (Rat.cast_lt (K := ℝ)).1 ?_
    push_cast
    exact h
  have k1 := abs_lt.1 kq
  have f1 : (1:ℚ) ≤ N := by exact_mod_cast hN
  have g0 : 0 < g := by linarith
  have hz := hv.z_false g0.ne'
  subst hz
  obtain ⟨m, hm, er⟩ := C18_round_exact hf g false hv (Or.inr (by
    rw [abs_of_pos g0]; exact (minNormal_le' f).trans (le_trans (by norm_num) (show 1 / 2 ≤ g by linarith))))
  have : m = (N : ℤ) := hm.unique ⟨by push_cast; exact kq.le, fun h => by push_cast at h; linarith⟩
  rw [er, if_neg (by simp [g0.le]), this]
  push_cast
  rfl

theorem wh_floor (hf : f.exact = false) {g : ℚ} {z : Bool} {N : ℕ} (hv : Valid (fin g z : FV f)) (h : (N:ℝ) ≤ g) (h1 : (g:ℝ) < N + 1) (h2 : (1 / 4 : ℝ) ≤ g) :
    floor (fin g z : FV f) = .ok (fin N false) := by
  have a : (N:ℚ) ≤ g := by refine (Rat.cast_le (K := ℝ)).1 ?_; push_cast; exact h
  have b : g < N + 1 := by refine (Rat.cast_lt (K := ℝ)).1 ?_; push_cast; exact h1
  have c : 1 / 4 ≤ g := by refine (Rat.cast_le (K := ℝ)).1 ?_; push_cast; exact h2
  have g0 : 0 < g := by linarith
  rw [C15_floor_exact hf g z hv (Or.inr (by rw [abs_of_pos g0]; have := minNormal_lt_one f; linarith)), hv.z_false g0.ne']
  have : ⌊g⌋ = (N:ℤ) := by rw [Int.floor_eq_iff]; exact ⟨by push_cast; exact a, by push_cast; exact b⟩
  rw [this]; push_cast; rfl

/-! ## square roots -/

/-- relative error of sqrt (C26) -/
noncomputable def sqErr : FTy → ℝ
  | .float => 18 / 2 ^ 24
  | .double => 71 / 2 ^ 53
  | .ldouble => 969 / 2 ^ 64

theorem wh_sqrt (hf : f.exact = false) {q : ℚ} {z : Bool} (hx : Valid (fin q z : FV f)) (h : 1 ≤ q) :
    ∃ r : ℚ, sqrt (fin q z : FV f) = .ok (fin r false) ∧ Valid (fin r false : FV f) ∧ |(r:ℝ) - √(q:ℝ)| ≤ sqErr f.ty * √(q:ℝ) := by
  have hv := okv_sqrt hf hx
  have key : ∃ r : ℚ, sqrt (fin q z : FV f) = .ok (fin r false) ∧ |(r:ℝ) - √(q:ℝ)| ≤ sqErr f.ty * √(q:ℝ) := by
    rcases f with ⟨⟨⟩, e⟩ <;> (simp only at hf; subst hf)
    · exact C26_float q z hx (le_trans (by norm_num) h)
    · exact C26_double q z hx (le_trans (by norm_num) h)
    · exact C26_long_double q z hx (le_trans (by norm_num) h)
  obtain ⟨r, e, b⟩ := key
  rw [e] at hv
  exact ⟨r, e, hv, b⟩

theorem wh_between {δ c r q : ℝ} {n : ℕ} (d0 : 0 < δ) (d1 : δ < 1) (c0 : 0 < c) (l : (n:ℝ) ^ 2 + c ≤ q) (u : q ≤ (n + 1) ^ 2 - c)
    (hc : 2 * δ * (n + 1) ^ 2 ≤ c) (h : |r - √q| ≤ δ * √q) : (n:ℝ) ≤ r ∧ r < n + 1 := by
  have n0 : (0:ℝ) ≤ n := by positivity
  have q0 : 0 ≤ q := by nlinarith
  have s0 := Real.sqrt_nonneg q
  have s2 := Real.sq_sqrt q0
  rcases abs_le.1 h with ⟨a, b⟩
  generalize √q = s at *
  constructor
  · have : (n:ℝ) ≤ (1 - δ) * s := by
      refine le_of_sq_le_sq ?_ (mul_nonneg (by linarith) s0)
      have : ((1 - δ) * s) ^ 2 = (1 - δ) ^ 2 * q := by rw [mul_pow, s2]
      rw [this]
      nlinarith [mul_nonneg (sq_nonneg δ) q0, mul_le_mul_of_nonneg_left u d0.le]
    linarith
  · have : (1 + δ) * s < n + 1 := by
      refine lt_of_pow_lt_pow_left₀ 2 (by linarith) ?_
      have : ((1 + δ) * s) ^ 2 = (1 + δ) ^ 2 * q := by rw [mul_pow, s2]
      rw [this]
      have h1 : (1 + δ) ^ 2 * q ≤ (1 + δ) ^ 2 * ((n + 1) ^ 2 - c) := mul_le_mul_of_nonneg_left u (sq_nonneg _)
      have h2 : δ * (2 * δ * (n + 1) ^ 2) ≤ δ * c := mul_le_mul_of_nonneg_left hc d0.le
      nlinarith [mul_pos d0 c0, mul_pos (mul_pos d0 d0) c0]
    linarith

theorem wh_valid (hf : f.exact = false) {q : ℚ} (hr : Rep f q) (h : |q| ≤ 2 ^ f.prec) : Valid (fin q false : FV f) := by
  have : mk f q false = fin q false := by
    rw [mk_of_rep hr (overflows_false_iff.2 (Or.inr (lt_of_le_of_lt h ?_)))]
    · simp
    · rcases f with ⟨⟨⟩, ⟨⟩⟩ <;> decide +kernel
  rw [← this]; exact valid_mk _ _

theorem wh_valid_nat (hf : f.exact = false) {m : ℕ} (h : m ≤ 2 ^ f.prec) : Valid (fin (m:ℚ) false : FV f) := by
  have hr : Rep f ((m:ℤ):ℚ) := rep_int (by rw [abs_of_nonneg (by positivity)]; exact_mod_cast h)
  refine wh_valid hf (by simpa using hr) ?_
  rw [abs_of_nonneg (by positivity)]; exact_mod_cast h

theorem wh_valid_half (hf : f.exact = false) {m : ℕ} (h : m ≤ 2 ^ (f.prec - 2)) : Valid (fin ((m:ℚ) + 1 / 2) false : FV f) := by
  have hp : 2 ≤ f.prec := by rcases f with ⟨⟨⟩, ⟨⟩⟩ <;> decide
  have e : (2:ℕ) ^ f.prec = 4 * 2 ^ (f.prec - 2) := by
    rw [show (4:ℕ) = 2 ^ 2 by norm_num, ← pow_add]; congr 1; omega
  have p1 : 1 ≤ 2 ^ (f.prec - 2) := Nat.one_le_two_pow
  have hr := rep_of_scaled (f := f) (m := 2 * (m:ℤ) + 1) (e := -1) (by
    rw [abs_of_nonneg (by positivity)]
    have : 2 * m + 1 ≤ 2 ^ f.prec := by omega
    exact_mod_cast this) (by rcases f with ⟨⟨⟩, ⟨⟩⟩ <;> decide)
  have e2 : (((2 * (m:ℤ) + 1 : ℤ)) : ℚ) * pow2 (-1) = (m:ℚ) + 1 / 2 := by
    rw [pow2_eq]; push_cast; norm_num; ring
  rw [e2] at hr
  refine wh_valid hf hr ?_
  rw [abs_of_nonneg (by positivity)]
  have : m + 1 ≤ 2 ^ f.prec := by omega
  have : (m:ℚ) + 1 ≤ 2 ^ f.prec := by exact_mod_cast this
  linarith

theorem wh_sqErr (t : FTy) : 0 < sqErr t ∧ sqErr t < 1 := by
  cases t <;> norm_num [sqErr]

/-- C98: `floor(sqrt(m))` is the integer square root of every whole number `m >= 1` up to the bound that is not the square of a number above 10. -/
theorem C98_isqrt (hf : f.exact = false) (m : ℕ) (h1 : 1 ≤ m)
    (hm : m ≤ match f.ty with | .float => 2 ^ 18 | .double => 2 ^ 45 | .ldouble => 2 ^ 53) (hs : m ≤ 100 ∨ ¬ IsSquare m) :
    (sqrt (fin (m:ℚ) false : FV f) >>= floor) = .ok (fin (Nat.sqrt m) false) := by
  have hp : m ≤ 2 ^ f.prec := hm.trans (by rcases f with ⟨⟨⟩, ⟨⟩⟩ <;> decide)
  have hx := wh_valid_nat hf hp
  by_cases sq : IsSquare m
  · obtain ⟨k, rfl⟩ := sq
    have hk : k * k ≤ 100 := by
      rcases hs with h | h
      · exact h
      · exact absurd ⟨k, rfl⟩ h
    have k10 : k ≤ 10 := by nlinarith
    have k1 : 1 ≤ k := by
      rcases Nat.eq_zero_or_pos k with h | h
      · subst h; omega
      · exact h
    have k1q : (1:ℚ) ≤ k := by exact_mod_cast k1
    have hvk : Valid (fin (k:ℚ) false : FV f) := wh_valid_nat hf (le_trans (Nat.le_mul_self k) hp)
    have e := C91_exact_square hf (k:ℚ) false hvk (by push_cast at hx; exact hx)
      ((minNormal_lt_one f).le.trans (by nlinarith)) (le_trans (by norm_num) k1q) (by exact_mod_cast k10)
    push_cast
    rw [e, Nat.sqrt_eq]
    exact wh_floor hf hvk (by push_cast; exact le_rfl) (by push_cast; linarith) (by
      have : (1:ℝ) ≤ k := by exact_mod_cast k1
      push_cast; linarith)
  · obtain ⟨r, e, hv, b⟩ := wh_sqrt hf hx (by exact_mod_cast h1)
    have l1 : Nat.sqrt m * Nat.sqrt m ≤ m := Nat.sqrt_le m
    have l2 : m < (Nat.sqrt m + 1) * (Nat.sqrt m + 1) := Nat.lt_succ_sqrt m
    have l3 : Nat.sqrt m * Nat.sqrt m ≠ m := fun h => sq ⟨_, h.symm⟩
    generalize Nat.sqrt m = n at *
    have l4 : n * n + 1 ≤ m := by omega
    have l5 : m + 1 ≤ (n + 1) * (n + 1) := by omega
    have l4r : (n:ℝ) ^ 2 + 1 ≤ m := by rw [pow_two]; exact_mod_cast l4
    have l5r : (m:ℝ) ≤ (n + 1) ^ 2 - 1 := by
      have : (m:ℝ) + 1 ≤ (n + 1) * (n + 1) := by exact_mod_cast l5
      linarith [pow_two ((n:ℝ) + 1)]
    obtain ⟨d0, d1⟩ := wh_sqErr f.ty
    have hc : 2 * sqErr f.ty * ((n:ℝ) + 1) ^ 2 ≤ 1 := by
      have mr : (m:ℝ) ≤ (match f.ty with | .float => 2 ^ 18 | .double => 2 ^ 45 | .ldouble => 2 ^ 53 : ℕ) := by exact_mod_cast hm
      clear hm
      rcases f with ⟨⟨⟩, e⟩ <;> simp only [sqErr] at mr ⊢
      · have : (n:ℝ) ≤ 2 ^ 9 := by by_contra hh; push Not at hh; push_cast at mr; nlinarith
        push_cast at mr; nlinarith
      · have : (n:ℝ) ≤ 2 ^ 23 := by by_contra hh; push Not at hh; push_cast at mr; nlinarith
        push_cast at mr; nlinarith
      · have : (n:ℝ) ≤ 2 ^ 27 := by by_contra hh; push Not at hh; push_cast at mr; nlinarith
        push_cast at mr; nlinarith
    have bb := wh_between (q := m) d0 d1 one_pos l4r l5r hc (by push_cast at b; exact b)
    rw [e]
    refine wh_floor hf hv bb.1 bb.2 ?_
    have n1 : 1 ≤ n := by by_contra hh; have : n = 0 := by omega
                          subst this; omega
    have : (1:ℝ) ≤ n := by exact_mod_cast n1
    linarith [bb.1]

/-- C98: `floor(sqrt(m + 0.5))` is the integer square root of every whole number `m >= 1` up to the bound, squares included. -/
theorem C98_isqrt_half (hf : f.exact = false) (m : ℕ) (h1 : 1 ≤ m)
    (hm : m ≤ match f.ty with | .float => 2 ^ 17 | .double => 2 ^ 44 | .ldouble => 2 ^ 52) :
    (sqrt (fin ((m:ℚ) + 1 / 2) false : FV f) >>= floor) = .ok (fin (Nat.sqrt m) false) := by
  have hp : m ≤ 2 ^ (f.prec - 2) := hm.trans (by rcases f with ⟨⟨⟩, ⟨⟩⟩ <;> decide)
  have hx := wh_valid_half hf hp
  have h1q : (1:ℚ) ≤ m := by exact_mod_cast h1
  obtain ⟨r, e, hv, b⟩ := wh_sqrt hf hx (by linarith)
  have l4 : Nat.sqrt m * Nat.sqrt m ≤ m := Nat.sqrt_le m
  have l2 : m < (Nat.sqrt m + 1) * (Nat.sqrt m + 1) := Nat.lt_succ_sqrt m
  have n1 : 1 ≤ Nat.sqrt m := Nat.le_sqrt.2 (by omega)
  generalize Nat.sqrt m = n at *
  have l5 : m + 1 ≤ (n + 1) * (n + 1) := by omega
  have l4r : (n:ℝ) ^ 2 + 1 / 2 ≤ m + 1 / 2 := by
    have : (n:ℝ) * n ≤ m := by exact_mod_cast l4
    linarith [pow_two (n:ℝ)]
  have l5r : (m:ℝ) + 1 / 2 ≤ (n + 1) ^ 2 - 1 / 2 := by
    have : (m:ℝ) + 1 ≤ (n + 1) * (n + 1) := by exact_mod_cast l5
    linarith [pow_two ((n:ℝ) + 1)]
  obtain ⟨d0, d1⟩ := wh_sqErr f.ty
  have hc : 2 * sqErr f.ty * ((n:ℝ) + 1) ^ 2 ≤ 1 / 2 := by
    have mr : (m:ℝ) ≤ (match f.ty with | .float => 2 ^ 17 | .double => 2 ^ 44 | .ldouble => 2 ^ 52 : ℕ) := by exact_mod_cast hm
    clear hm
    rcases f with ⟨⟨⟩, e⟩ <;> simp only [sqErr] at mr ⊢
    · have : (n:ℝ) ≤ 2 ^ 9 := by by_contra hh; push Not at hh; push_cast at mr; nlinarith
      push_cast at mr; nlinarith
    · have : (n:ℝ) ≤ 2 ^ 22 := by by_contra hh; push Not at hh; push_cast at mr; nlinarith
      push_cast at mr; nlinarith
    · have : (n:ℝ) ≤ 2 ^ 26 := by by_contra hh; push Not at hh; push_cast at mr; nlinarith
      push_cast at mr; nlinarith
  have bb := wh_between (q := m + 1 / 2) d0 d1 (by norm_num : (0:ℝ) < 1 / 2) l4r l5r hc (by push_cast at b; exact b)
  rw [e]
  refine wh_floor hf hv bb.1 bb.2 ?_
  have : (1:ℝ) ≤ n := by exact_mod_cast n1
  linarith [bb.1]

/-- C98: `round(sqrt(n * n)) == n` for every whole `n >= 1` with `n * n <= 2^prec`. -/
theorem C98_sqrt_round (hf : f.exact = false) (n : ℕ) (h1 : 1 ≤ n) (hn : n * n ≤ 2 ^ f.prec) :
    (sqrt (fin ((n * n : ℕ):ℚ) false : FV f) >>= round) = .ok (fin n false) := by
  have hx := wh_valid_nat hf hn
  have hn1 : 1 ≤ n * n := Nat.mul_pos h1 h1
  obtain ⟨r, e, hv, b⟩ := wh_sqrt hf hx (by exact_mod_cast hn1)
  rw [e]
  refine wh_round hf hv ?_ h1
  have e1 : √(((n * n : ℕ):ℚ):ℝ) = n := by push_cast; exact Real.sqrt_mul_self (by positivity)
  rw [e1] at b
  refine b.trans_lt ?_
  have hr : (n:ℝ) * n ≤ 2 ^ f.prec := by exact_mod_cast hn
  clear hn hx hv b e e1
  rcases f with ⟨⟨⟩, e⟩ <;> simp only [sqErr]
  · have : (n:ℝ) ≤ 2 ^ 12 := by by_contra hh; push Not at hh; change _ ≤ (2:ℝ) ^ 24 at hr; nlinarith
    nlinarith
  · have : (n:ℝ) ≤ 2 ^ 27 := by by_contra hh; push Not at hh; change _ ≤ (2:ℝ) ^ 53 at hr; nlinarith
    nlinarith
  · have : (n:ℝ) ≤ 2 ^ 32 := by by_contra hh; push Not at hh; change _ ≤ (2:ℝ) ^ 64 at hr; nlinarith
    nlinarith

/-- C98: `floor` is one too small at some squares: at 169 in double, at 256 in float and long double. -/
theorem C98_isqrt_fails : (sqrt (fin 169 false : FV binary64) >>= floor) = .ok (fin 12 false) ∧
    (sqrt (fin 256 false : FV binary32) >>= floor) = .ok (fin 15 false) ∧
    (sqrt (fin 256 false : FV x87) >>= floor) = .ok (fin 15 false) := by
  refine ⟨?_, ?_, ?_⟩ <;> decide +kernel

/-! ## logarithms -/

theorem wh_valid_log2 {x r : FV f} (h : log2 x = .ok r) : Valid r := by
  unfold log2 at h
  cases e : log x with
  | error u => rw [e] at h; injection h
  | ok l => rw [e] at h; injection h with h; rw [← h]; exact valid_cast _

theorem wh_valid_log10 {x r : FV f} (h : log10 x = .ok r) : Valid r := by
  unfold log10 at h
  cases e : log x with
  | error u => rw [e] at h; injection h
  | ok l => rw [e] at h; injection h with h; rw [← h]; exact valid_cast _

theorem wh_log_between {s u L : ℝ} {B n k : ℕ} (hB : 2 ≤ B) (hL : L = Real.log B) (h1 : B ^ k < n) (h2 : n < B ^ (k + 1)) (u0 : 0 ≤ u)
    (hc : (16 + 10 * Real.log n) * u * (n + 1) < 1)
    (h : |s - Real.logb B n| ≤ (16 + 10 * Real.log n) / L * u) : (k:ℝ) ≤ s ∧ s < k + 1 := by
  have B1 : (1:ℝ) < B := by exact_mod_cast (by omega : 1 < B)
  have L0 : 0 < L := by rw [hL]; exact Real.log_pos B1
  have Bk : (0:ℝ) < (B:ℝ) ^ k := by positivity
  have n0 : (0:ℝ) < n := lt_trans Bk (by exact_mod_cast h1)
  have g1 : (B:ℝ) ^ k + 1 ≤ n := by exact_mod_cast h1
  have g2 : (n:ℝ) + 1 ≤ (B:ℝ) ^ (k + 1) := by exact_mod_cast h2
  have e : Real.logb B n = Real.log n / L := by rw [Real.logb, hL]
  rw [e] at h
  have lo : k * L + 1 / n ≤ Real.log n := by
    have := Real.one_sub_inv_le_log_of_pos (div_pos n0 Bk)
    rw [Real.log_div n0.ne' Bk.ne', Real.log_pow, ← hL, inv_div] at this
    have : (B:ℝ) ^ k / n ≤ 1 - 1 / n := by rw [div_le_iff₀ n0, sub_mul, one_div, inv_mul_cancel₀ n0.ne']; linarith
    linarith
  have up : Real.log n + 1 / (n + 1) ≤ (k + 1) * L := by
    have B2 : (0:ℝ) < (B:ℝ) ^ (k + 1) := by positivity
    have h3 : Real.log (n + 1) ≤ (k + 1) * L := by
      have := Real.log_le_log (by linarith : (0:ℝ) < n + 1) g2
      rw [Real.log_pow, ← hL] at this; push_cast at this; exact this
    have := Real.one_sub_inv_le_log_of_pos (div_pos (by linarith : (0:ℝ) < n + 1) n0)
    rw [Real.log_div (by linarith) n0.ne', inv_div] at this
    have h4 : (n:ℝ) / (n + 1) = 1 - 1 / (n + 1) := by field_simp; ring
    linarith
  have ex : (16 + 10 * Real.log n) * u < 1 / (n + 1) := by rw [lt_div_iff₀ (by linarith)]; exact hc
  have i1 : (1:ℝ) / (n + 1) ≤ 1 / n := one_div_le_one_div_of_le n0 (by linarith)
  have hm : |s * L - Real.log n| ≤ (16 + 10 * Real.log n) * u := by
    have e2 : s * L - Real.log n = (s - Real.log n / L) * L := by field_simp
    rw [e2, abs_mul, abs_of_pos L0]
    have := mul_le_mul_of_nonneg_right h L0.le
    have e3 : (16 + 10 * Real.log n) / L * u * L = (16 + 10 * Real.log n) * u := by field_simp
    linarith
  rcases abs_le.1 hm with ⟨a, b⟩
  constructor
  · refine le_of_mul_le_mul_right ?_ L0; linarith
  · refine lt_of_mul_lt_mul_right ?_ L0.le; linarith

/-- largest argument for which the error of the logarithm cannot reach a whole number -/
def whN : FTy → ℕ
  | .float => 2 ^ 16
  | .double => 2 ^ 44
  | .ldouble => 2 ^ 55

theorem wh_logN (hf : f.exact = false) {n : ℕ} (h1 : 1 ≤ n) (hn : n ≤ whN f.ty) : (16 + 10 * Real.log n) * (1 / 2 ^ f.prec) * (n + 1) < 1 := by
  have l2 := Real.log_two_lt_d9
  have n1 : (1:ℝ) ≤ n := by exact_mod_cast h1
  have l0 := Real.log_nonneg n1
  have key : ∀ (k : ℕ), (n:ℝ) ≤ 2 ^ k → Real.log n ≤ k * 0.6931471808 := fun k hk => by
    have := Real.log_le_log (by linarith) hk
    rw [Real.log_pow] at this
    exact this.trans (mul_le_mul_of_nonneg_left l2.le (by positivity))
  have hr : (n:ℝ) ≤ whN f.ty := by exact_mod_cast hn
  rcases f with ⟨⟨⟩, e⟩ <;> simp only [whN] at hr <;> push_cast at hr
  · replace hr : (n:ℝ) ≤ 2 ^ 16 := hr.trans (by norm_num)
    have := key 16 hr
    show (16 + 10 * Real.log n) * (1 / 2 ^ 24) * (n + 1) < 1
    have h3 : (16 + 10 * Real.log n) * (n + 1) ≤ (16 + 10 * ((16:ℕ) * 0.6931471808)) * (2 ^ 16 + 1) := by gcongr
    norm_num at h3 ⊢; linarith
  · replace hr : (n:ℝ) ≤ 2 ^ 44 := hr.trans (by norm_num)
    have := key 44 hr
    show (16 + 10 * Real.log n) * (1 / 2 ^ 53) * (n + 1) < 1
    have h3 : (16 + 10 * Real.log n) * (n + 1) ≤ (16 + 10 * ((44:ℕ) * 0.6931471808)) * (2 ^ 44 + 1) := by gcongr
    norm_num at h3 ⊢; linarith
  · replace hr : (n:ℝ) ≤ 2 ^ 55 := hr.trans (by norm_num)
    have := key 55 hr
    show (16 + 10 * Real.log n) * (1 / 2 ^ 64) * (n + 1) < 1
    have h3 : (16 + 10 * Real.log n) * (n + 1) ≤ (16 + 10 * ((55:ℕ) * 0.6931471808)) * (2 ^ 55 + 1) := by gcongr
    norm_num at h3 ⊢; linarith

theorem wh_log_quarter (hf : f.exact = false) {s L : ℝ} {n : ℕ} (h2 : 2 ≤ n) (hn : n ≤ whN f.ty) (L0 : 0 < L) (L1 : L ≤ 12 / 5)
    (h : |s - Real.log n / L| ≤ (16 + 10 * Real.log n) / L * (1 / 2 ^ f.prec)) : 1 / 4 ≤ s := by
  have l2 := Real.log_two_gt_d9
  have n2 : (2:ℝ) ≤ n := by exact_mod_cast h2
  have l := Real.log_le_log (by norm_num) n2
  have hu : (1:ℝ) / 2 ^ f.prec ≤ 1 / 2 ^ 24 := by rcases f with ⟨⟨⟩, e⟩ <;> norm_num [Fmt.prec, FTy.prec]
  have h1 := (abs_le.1 h).1
  have e : Real.log n / L - (16 + 10 * Real.log n) / L * (1 / 2 ^ f.prec) = (Real.log n - (16 + 10 * Real.log n) * (1 / 2 ^ f.prec)) / L := by ring
  have : (1:ℝ) / 4 ≤ (Real.log n - (16 + 10 * Real.log n) * (1 / 2 ^ f.prec)) / L := by
    rw [le_div_iff₀ L0]
    have : (16 + 10 * Real.log n) * (1 / 2 ^ f.prec) ≤ (16 + 10 * Real.log n) * (1 / 2 ^ 24) := mul_le_mul_of_nonneg_left hu (by linarith)
    linarith
  linarith

/-- C98: `floor(log2(n))` is one less than the number of binary digits of `n`, for every whole `n` up to the bound that is not a power of two. -/
theorem C98_log2_floor (hf : f.exact = false) (n : ℕ) (h1 : 1 ≤ n) (hn : n ≤ match f.ty with | .float => 2 ^ 16 | .double => 2 ^ 44 | .ldouble => 2 ^ 55)
    (hp : ∀ k : ℕ, n ≠ 2 ^ k) : (log2 (fin (n:ℚ) false : FV f) >>= floor) = .ok (fin (Nat.log 2 n) false) := by
  have hn' : n ≤ whN f.ty := hn.trans (by rcases f with ⟨⟨⟩, e⟩ <;> exact le_rfl)
  have hx := wh_valid_nat hf (hn'.trans (by rcases f with ⟨⟨⟩, ⟨⟩⟩ <;> decide) : n ≤ 2 ^ f.prec)
  obtain ⟨s, w, e, b⟩ := C63_log2_ge_one hf (n:ℚ) false hx (by exact_mod_cast h1)
  push_cast at b
  have n2 : 2 ≤ n := by have := hp 0; simp at this; omega
  have k1 : 2 ^ Nat.log 2 n < n := lt_of_le_of_ne (Nat.pow_log_le_self 2 (by omega)) fun h => hp _ h.symm
  have k2 : n < 2 ^ (Nat.log 2 n + 1) := Nat.lt_pow_succ_log_self (by norm_num) n
  have bb := wh_log_between (s := s) (u := 1 / 2 ^ f.prec) (L := Real.log 2) (B := 2) le_rfl (by norm_num) k1 k2 (by positivity) (wh_logN hf h1 hn') (by push_cast; exact b)
  have l2 := Real.log_two_lt_d9
  rw [e]
  exact wh_floor hf (wh_valid_log2 e) bb.1 bb.2 (wh_log_quarter hf n2 hn' (Real.log_pos (by norm_num)) (by linarith) b)

/-- the statement without `match` -/
theorem wh_log10_floor (hf : f.exact = false) (n : ℕ) (h1 : 1 ≤ n) (hn' : n ≤ whN f.ty)
    (hp : ∀ k : ℕ, n ≠ 10 ^ k) : (log10 (fin (n:ℚ) false : FV f) >>= floor) = .ok (fin (Nat.log 10 n) false) := by
  have hx := wh_valid_nat hf (hn'.trans (by rcases f with ⟨⟨⟩, ⟨⟩⟩ <;> decide) : n ≤ 2 ^ f.prec)
  obtain ⟨s, w, e, b⟩ := C63_log10_ge_one hf (n:ℚ) false hx (by exact_mod_cast h1)
  push_cast at b
  have n2 : 2 ≤ n := by have := hp 0; simp at this; omega
  have k1 : 10 ^ Nat.log 10 n < n := lt_of_le_of_ne (Nat.pow_log_le_self 10 (by omega)) fun h => hp _ h.symm
  have k2 : n < 10 ^ (Nat.log 10 n + 1) := Nat.lt_pow_succ_log_self (by norm_num) n
  have bb := wh_log_between (s := s) (u := 1 / 2 ^ f.prec) (L := Real.log 10) (B := 10) (by norm_num) (by norm_num) k1 k2 (by positivity) (wh_logN hf h1 hn') (by push_cast; exact b)
  have l2 := Real.log_two_lt_d9
  have l10 : Real.log 10 ≤ 12 / 5 := by
    have : Real.log ((10:ℝ) ^ 3) ≤ Real.log (2 ^ 10) := Real.log_le_log (by norm_num) (by norm_num)
    rw [Real.log_pow, Real.log_pow] at this
    push_cast at this
    linarith
  rw [e]
  exact wh_floor hf (wh_valid_log10 e) bb.1 bb.2 (wh_log_quarter hf n2 hn' (Real.log_pos (by norm_num)) l10 b)

theorem wh_log10_pow :
    (∀ k : ℕ, k < 11 → (log10 (fin (10 ^ k) false : FV binary32) >>= floor) = .ok (fin k false)) ∧
    (∀ k : ℕ, k < 23 → (log10 (fin (10 ^ k) false : FV binary64) >>= floor) = .ok (fin k false)) ∧
    (∀ k : ℕ, k < 15 → (log10 (fin (10 ^ k) false : FV x87) >>= floor) = .ok (fin k false)) := by
  refine ⟨?_, ?_, ?_⟩ <;> decide +kernel

/-- C98: `floor(log10(n))` is one less than the number of decimal digits of `n`, for every whole `n` from 1 to the bound. -/
theorem C98_log10_floor (hf : f.exact = false) (n : ℕ) (h1 : 1 ≤ n) (hn : n < match f.ty with | .float => 2 ^ 16 | .double => 2 ^ 44 | .ldouble => 10 ^ 15) :
    (log10 (fin (n:ℚ) false : FV f) >>= floor) = .ok (fin (Nat.log 10 n) false) := by
  have hn' : n ≤ whN f.ty := hn.le.trans (by rcases f with ⟨⟨⟩, e⟩ <;> norm_num [whN])
  by_cases hp : ∀ k : ℕ, n ≠ 10 ^ k
  · exact wh_log10_floor hf n h1 hn' hp
  · push Not at hp
    obtain ⟨k, rfl⟩ := hp
    rw [Nat.log_pow (by norm_num)]
    have hk : k < 15 := by
      have : 10 ^ k < 10 ^ 15 := lt_of_lt_of_le hn (by rcases f with ⟨⟨⟩, e⟩ <;> norm_num)
      exact (Nat.pow_lt_pow_iff_right (by norm_num)).1 this
    push_cast
    rcases f with ⟨⟨⟩, e⟩ <;> (simp only at hf; subst hf)
    · refine wh_log10_pow.1 k ?_
      have : 10 ^ k < 10 ^ 11 := lt_trans hn (by norm_num)
      exact (Nat.pow_lt_pow_iff_right (by norm_num)).1 this
    · exact wh_log10_pow.2.1 k (by omega)
    · exact wh_log10_pow.2.2 k hk

/-- C98: `floor(log2(2^k))` is `k - 1` for `8.0`, `32768.0f` and `32768.0L`, and `floor(log10(1e15L))` is 14. -/
theorem C98_log_floor_fails : (log2 (fin 8 false : FV binary64) >>= floor) = .ok (fin 2 false) ∧
    (log2 (fin 32768 false : FV binary32) >>= floor) = .ok (fin 14 false) ∧
    (log10 (fin (10 ^ 15) false : FV x87) >>= floor) = .ok (fin 14 false) := by
  refine ⟨?_, ?_, ?_⟩ <;> decide +kernel

/-- C98: `round(log2(2^k)) == k` for every finite power of two from 2 on. -/
theorem C98_log2_round (hf : f.exact = false) (k : ℕ) (h1 : 1 ≤ k) (hk : (k:ℤ) < f.emax) :
    (log2 (fin (2 ^ k) false : FV f) >>= round) = .ok (fin k false) := by
  have hr : Rep f (2 ^ k : ℚ) := by exact rep_pow2_nat
  have hx : Valid (fin (2 ^ k) false : FV f) := by
    have : mk f (2 ^ k) false = fin (2 ^ k) false := by
      rw [mk_of_rep hr (overflows_false_iff.2 (Or.inr ?_))]
      · simp
      · rw [abs_of_pos (by positivity), ← pow2_nat]; exact pow2_lt hk
    rw [← this]; exact valid_mk _ _
  obtain ⟨s, w, e, b⟩ := C63_log2_ge_one hf (2 ^ k) false hx (one_le_pow₀ (by norm_num))
  rw [e]
  refine wh_round hf (wh_valid_log2 e) ?_ h1
  push_cast at b
  have l0 : 0 < Real.log 2 := Real.log_pos (by norm_num)
  have l2 := Real.log_two_gt_d9
  rw [Real.logb_pow, Real.logb_self_eq_one (by norm_num), mul_one, Real.log_pow] at b
  refine b.trans_lt ?_
  have e2 : (16 + 10 * (k * Real.log 2)) / Real.log 2 = 16 / Real.log 2 + 10 * k := by field_simp
  have h3 : 16 / Real.log 2 ≤ 24 := by rw [div_le_iff₀ l0]; linarith
  rw [e2]
  have hu : (24 + 10 * (k:ℝ)) * (1 / 2 ^ f.prec) < 1 / 2 := by
    have kr : (k:ℝ) < f.emax := by exact_mod_cast hk
    clear hk hx b e hr h1
    rcases f with ⟨⟨⟩, e⟩
    · change (k:ℝ) < ((128:ℤ):ℝ) at kr; change (24 + 10 * (k:ℝ)) * (1 / 2 ^ 24) < 1 / 2; push_cast at kr; norm_num; linarith
    · change (k:ℝ) < ((1024:ℤ):ℝ) at kr; change (24 + 10 * (k:ℝ)) * (1 / 2 ^ 53) < 1 / 2; push_cast at kr; norm_num; linarith
    · change (k:ℝ) < ((16384:ℤ):ℝ) at kr; change (24 + 10 * (k:ℝ)) * (1 / 2 ^ 64) < 1 / 2; push_cast at kr; norm_num; linarith
  refine lt_of_le_of_lt ?_ hu
  gcongr

/-! ## powers and binomial coefficients -/

/-- C98: `round(pow(b, n)) == b^n` with a real exponent, for whole `b >= 1` and `n` with `b^n` up to the bound. -/
theorem C98_pow_round (hf : f.exact = false) (b n : ℕ) (hb : 1 ≤ b)
    (h : b ^ n ≤ match f.ty with | .float => 2 ^ 13 | .double => 2 ^ 40 | .ldouble => 2 ^ 51) (z : Bool) (hv : b ≤ 2 ^ f.prec) :
    (pow (fin (b:ℚ) false : FV f) (fin (n:ℚ) z) >>= round) = .ok (fin (b ^ n : ℕ) false) := by
  have l2 := Real.log_two_lt_d9
  have b1 : (1:ℝ) ≤ b := by exact_mod_cast hb
  have hN : 1 ≤ b ^ n := Nat.one_le_pow _ _ hb
  have N1 : (1:ℝ) ≤ (b ^ n : ℕ) := by exact_mod_cast hN
  have el : (n:ℝ) * Real.log b = Real.log (b ^ n : ℕ) := by push_cast; rw [Real.log_pow]
  have l0 : 0 ≤ Real.log (b ^ n : ℕ) := Real.log_nonneg N1
  have hr : ((b ^ n : ℕ):ℝ) ≤ (match f.ty with | .float => 2 ^ 13 | .double => 2 ^ 40 | .ldouble => 2 ^ 51 : ℕ) := by exact_mod_cast h
  have key : ∀ (k : ℕ), ((b ^ n : ℕ):ℝ) ≤ 2 ^ k → Real.log (b ^ n : ℕ) ≤ k * 0.6931471808 := fun k hk => by
    have := Real.log_le_log (by linarith) hk
    rw [Real.log_pow] at this
    exact this.trans (mul_le_mul_of_nonneg_left l2.le (by positivity))
  have hbound : Real.log (b ^ n : ℕ) ≤ expMin f.ty - 1 ∧
      ((105 + 46 * Real.log (b ^ n : ℕ)) * (1 / 2 ^ f.prec) + (Real.log (b ^ n : ℕ) + 8) * (1 / 2 ^ 62)) * (b ^ n : ℕ) < 1 / 2 := by
    generalize ((b ^ n : ℕ):ℝ) = N at *
    clear h hv
    rcases f with ⟨⟨⟩, e⟩ <;> simp only at hr
    · replace hr : N ≤ 2 ^ 13 := hr.trans (by norm_num)
      have k1 := key 13 hr
      refine ⟨by norm_num [expMin]; norm_num at k1; linarith, ?_⟩
      show ((105 + 46 * Real.log N) * (1 / 2 ^ 24) + (Real.log N + 8) * (1 / 2 ^ 62)) * N < 1 / 2
      refine lt_of_le_of_lt (b := ((105 + 46 * (((13:ℕ):ℝ) * 0.6931471808)) * (1 / 2 ^ 24) + ((((13:ℕ):ℝ) * 0.6931471808) + 8) * (1 / 2 ^ 62)) * 2 ^ 13) (by gcongr) (by norm_num)
    · replace hr : N ≤ 2 ^ 40 := hr.trans (by norm_num)
      have k1 := key 40 hr
      refine ⟨by norm_num [expMin]; norm_num at k1; linarith, ?_⟩
      show ((105 + 46 * Real.log N) * (1 / 2 ^ 53) + (Real.log N + 8) * (1 / 2 ^ 62)) * N < 1 / 2
      refine lt_of_le_of_lt (b := ((105 + 46 * (((40:ℕ):ℝ) * 0.6931471808)) * (1 / 2 ^ 53) + ((((40:ℕ):ℝ) * 0.6931471808) + 8) * (1 / 2 ^ 62)) * 2 ^ 40) (by gcongr) (by norm_num)
    · replace hr : N ≤ 2 ^ 51 := hr.trans (by norm_num)
      have k1 := key 51 hr
      refine ⟨by norm_num [expMin]; norm_num at k1; linarith, ?_⟩
      show ((105 + 46 * Real.log N) * (1 / 2 ^ 64) + (Real.log N + 8) * (1 / 2 ^ 62)) * N < 1 / 2
      refine lt_of_le_of_lt (b := ((105 + 46 * (((51:ℕ):ℝ) * 0.6931471808)) * (1 / 2 ^ 64) + ((((51:ℕ):ℝ) * 0.6931471808) + 8) * (1 / 2 ^ 62)) * 2 ^ 51) (by gcongr) (by norm_num)
  have ea : |((n:ℚ):ℝ) * Real.log ((b:ℚ):ℝ)| = Real.log (b ^ n : ℕ) := by
    rw [Rat.cast_natCast, Rat.cast_natCast, el, abs_of_nonneg l0]
  obtain ⟨r, e, r0, hb2⟩ := C65_accuracy hf (b:ℚ) (n:ℚ) false z (wh_valid_nat hf hv) (by
    have : (1:ℚ) ≤ b := by exact_mod_cast hb
    linarith) (by rw [ea]; exact hbound.1)
  rw [ea, Rat.cast_natCast, Rat.cast_natCast, Real.rpow_natCast] at hb2
  rw [e]
  exact wh_round hf (pow_valid e) (lt_of_le_of_lt (by push_cast at hb2 ⊢; exact hb2) hbound.2) hN

theorem wh_exp_err {r L E : ℝ} (hE : E ≤ 1 / 100) (h : |r - L| ≤ E) : |Real.exp r - Real.exp L| ≤ 51 / 50 * E * Real.exp L := by
  have E0 : 0 ≤ E := (abs_nonneg _).trans h
  have e : Real.exp r - Real.exp L = (Real.exp (r - L) - 1) * Real.exp L := by rw [Real.exp_sub]; field_simp
  rw [e, abs_mul, abs_of_pos (Real.exp_pos L)]
  refine mul_le_mul_of_nonneg_right ?_ (Real.exp_pos L).le
  have := Real.abs_exp_sub_one_sub_id_le (x := r - L) (by linarith)
  have h2 : |Real.exp (r - L) - 1| ≤ (r - L) ^ 2 + |r - L| := by
    have := abs_add_le (Real.exp (r - L) - 1 - (r - L)) (r - L)
    rw [sub_add_cancel] at this; linarith
  rw [← sq_abs] at h2
  nlinarith [abs_nonneg (r - L)]

/-- C98: `round(exp(log_binomial_coef(n, k)))` is the binomial coefficient, for `n <= 20` and values up to 1000 in float, `n <= 1000` and values
up to 2^32 in double and up to 2^42 in long double. -/
theorem C98_binomial_round (hf : f.exact = false) (n k : ℕ) (z w : Bool) (hk : k ≤ n)
    (hn : n ≤ match f.ty with | .float => 20 | .double => 1000 | .ldouble => 1000)
    (hc : n.choose k ≤ match f.ty with | .float => 1000 | .double => 2 ^ 32 | .ldouble => 2 ^ 42) :
    (log_binomial_coef (fin (n:ℚ) z : FV f) (fin (k:ℚ) w) >>= fun l => exp l >>= round) = .ok (fin (n.choose k) false) := by
  have l2 := Real.log_two_lt_d9
  have n0 : (0:ℝ) ≤ n := by positivity
  have hN : 1 ≤ n.choose k := Nat.choose_pos hk
  obtain ⟨r, t, e, b⟩ := C75_accuracy hf n k z w (lt_of_le_of_lt hn (by rcases f with ⟨⟨⟩, ⟨⟩⟩ <;> decide)) hk
  have N1 : (1:ℝ) ≤ n.choose k := by exact_mod_cast hN
  have hnr : (n:ℝ) ≤ (match f.ty with | .float => 20 | .double => 1000 | .ldouble => 1000 : ℕ) := by exact_mod_cast hn
  have hcr : (n.choose k:ℝ) ≤ (match f.ty with | .float => 1000 | .double => 2 ^ 32 | .ldouble => 2 ^ 42 : ℕ) := by exact_mod_cast hc
  have hv : Valid (fin r t : FV f) := by
    unfold log_binomial_coef at e
    cases ea : lgamma (fin (n:ℚ) z + i 1 : FV f) with
    | error u => rw [ea] at e; injection e
    | ok a =>
      cases eb : lgamma (fin (k:ℚ) w + i 1 : FV f) with
      | error u => rw [ea, eb] at e; injection e
      | ok a' =>
        cases ec : lgamma (fin (n:ℚ) z - fin (k:ℚ) w + i 1 : FV f) with
        | error u => rw [ea, eb, ec] at e; injection e
        | ok a'' => rw [ea, eb, ec] at e; injection e with e; rw [← e]; exact valid_sub _ _
  clear hn hc
  generalize n.choose k = C at *
  have E0 := Real.exp_log (by linarith : (0:ℝ) < C)
  have L0 := Real.log_nonneg N1
  have key : ∀ (a : ℕ), (C:ℝ) ≤ 2 ^ a → Real.log C ≤ a * 0.6931471808 := fun a ha => by
    have := Real.log_le_log (by linarith) ha
    rw [Real.log_pow] at this
    exact this.trans (mul_le_mul_of_nonneg_left l2.le (by positivity))
  have key2 : ∀ (a : ℕ), (n:ℝ) + 8 ≤ 2 ^ a → Real.log (n + 8) ≤ a * 0.6931471808 := fun a ha => by
    have := Real.log_le_log (by linarith) ha
    rw [Real.log_pow] at this
    exact this.trans (mul_le_mul_of_nonneg_left l2.le (by positivity))
  have hl8 : 0 ≤ Real.log ((n:ℝ) + 8) := Real.log_nonneg (by linarith)
  obtain ⟨E, hE, hE1, hL30, hfin⟩ : ∃ E : ℝ, (335 + 48 * (n + 2) * Real.log (n + 8)) / 2 ^ f.prec + 54 / 10 ^ 15 ≤ E ∧ E ≤ 1 / 1000 ∧
      Real.log C ≤ 30 ∧ (51 / 50 * E + 102 / 100 * (104 * (1 / 2 ^ f.prec) + 40 * (1 / 2 ^ 62))) * C < 1 / 2 := by
    clear hv e b
    rcases f with ⟨⟨⟩, e⟩ <;> simp only at hnr hcr
    · have k1 := key 10 (hcr.trans (by norm_num))
      have k2 := key2 5 (by push_cast at hnr; linarith)
      push_cast at hnr hcr k1 k2
      refine ⟨(335 + 48 * (20 + 2) * (5 * 0.6931471808)) / 2 ^ 24 + 54 / 10 ^ 15, ?_, by norm_num, by linarith, ?_⟩
      · show _ / 2 ^ 24 + _ ≤ _
        gcongr
      · refine lt_of_le_of_lt (mul_le_mul_of_nonneg_left hcr (by positivity)) ?_
        show (_ + _ * (_ * (1 / 2 ^ 24) + _)) * _ < _
        norm_num
    · have k1 := key 32 (hcr.trans (by norm_num))
      have k2 := key2 10 (by push_cast at hnr; linarith)
      push_cast at hnr hcr k1 k2
      refine ⟨(335 + 48 * (1000 + 2) * (10 * 0.6931471808)) / 2 ^ 53 + 54 / 10 ^ 15, ?_, by norm_num, by linarith, ?_⟩
      · show _ / 2 ^ 53 + _ ≤ _
        gcongr
      · refine lt_of_le_of_lt (mul_le_mul_of_nonneg_left hcr (by positivity)) ?_
        show (_ + _ * (_ * (1 / 2 ^ 53) + _)) * _ < _
        norm_num
    · have k1 := key 42 (hcr.trans (by norm_num))
      have k2 := key2 10 (by push_cast at hnr; linarith)
      push_cast at hnr hcr k1 k2
      refine ⟨(335 + 48 * (1000 + 2) * (10 * 0.6931471808)) / 2 ^ 64 + 54 / 10 ^ 15, ?_, by norm_num, by linarith, ?_⟩
      · show _ / 2 ^ 64 + _ ≤ _
        gcongr
      · refine lt_of_le_of_lt (mul_le_mul_of_nonneg_left hcr (by positivity)) ?_
        show (_ + _ * (_ * (1 / 2 ^ 64) + _)) * _ < _
        norm_num
  have hb := b.trans hE
  have ab := abs_le.1 hb
  have rr : |(r:ℝ)| ≤ 31 := by rw [abs_le]; constructor <;> linarith
  have rq : |r| ≤ 31 := by
    refine (Rat.cast_le (K := ℝ)).1 ?_
    push_cast; exact rr
  have aq := abs_le.1 rq
  have m1 : (31:ℚ) ≤ expMin f.ty ∧ (31:ℚ) ≤ expMax f.ty := by rcases f with ⟨⟨⟩, ⟨⟩⟩ <;> decide +kernel
  obtain ⟨g, eg, g0, bg⟩ := C33_accuracy hf r t hv (by linarith) (by linarith)
  have x1 := wh_exp_err (by linarith) hb
  rw [E0] at x1
  rw [e]
  show (exp (fin r t : FV f) >>= round) = _
  rw [eg]
  refine wh_round hf (exp_valid eg) (lt_of_le_of_lt ?_ hfin) hN
  have x2 : Real.exp r ≤ 102 / 100 * C := by
    have := (abs_le.1 x1).2
    have : 51 / 50 * E * C ≤ 51 / 50 * (1 / 1000) * C := by gcongr
    linarith
  have x3 : (104 * (1 / 2 ^ f.prec) + (|(r:ℝ)| + 7) * (1 / 2 ^ 62)) * Real.exp r ≤ (104 * (1 / 2 ^ f.prec) + 40 * (1 / 2 ^ 62)) * (102 / 100 * C) := by
    gcongr
    linarith
  have x4 := abs_add_le ((g:ℝ) - Real.exp r) (Real.exp r - C)
  rw [sub_add_sub_cancel] at x4
  linarith

/-- C98: truncating instead of rounding fails already at `pow(2.0, 2.0)`, `pow(7.0f, 2.0f)` and `pow(3.0L, 3.0L)`. -/
theorem C98_pow_floor_fails : (pow (fin 2 false : FV binary64) (fin 2 false) >>= floor) = .ok (fin 3 false) ∧
    (pow (fin 7 false : FV binary32) (fin 2 false) >>= floor) = .ok (fin 48 false) ∧
    (pow (fin 3 false : FV x87) (fin 3 false) >>= floor) = .ok (fin 26 false) := by
  refine ⟨?_, ?_, ?_⟩ <;> decide +kernel

/-! ## the hypotheses are met -/

example : (sqrt (fin ((2 ^ 45 - 1 : ℕ):ℚ) false : FV binary64) >>= floor) = .ok (fin (5931641 : ℕ) false) := by
  have := C98_isqrt (f := binary64) rfl (2 ^ 45 - 1) (by norm_num) (by norm_num) (Or.inr (by
    rintro ⟨r, h⟩
    rcases Nat.lt_or_ge r 5931642 with g | g
    · have : r * r ≤ 5931641 * 5931641 := Nat.mul_le_mul (by omega) (by omega)
      omega
    · have : 5931642 * 5931642 ≤ r * r := Nat.mul_le_mul g g
      omega))
  rwa [show Nat.sqrt (2 ^ 45 - 1) = 5931641 from (Nat.eq_sqrt.2 ⟨by norm_num, by norm_num⟩).symm] at this

/-- the square 169, at which `floor(sqrt(m))` fails -/
example : (sqrt (fin (((169:ℕ):ℚ) + 1 / 2) false : FV binary64) >>= floor) = .ok (fin (13:ℕ) false) := by
  have := C98_isqrt_half (f := binary64) rfl 169 (by norm_num) (by norm_num)
  rwa [show Nat.sqrt 169 = 13 from (Nat.eq_sqrt.2 ⟨by norm_num, by norm_num⟩).symm] at this

example : (sqrt (fin ((4096 * 4096 : ℕ):ℚ) false : FV binary32) >>= round) = .ok (fin (4096:ℕ) false) :=
  C98_sqrt_round (f := binary32) rfl 4096 (by norm_num) (by decide)

example : (log10 (fin ((9999999999999:ℕ):ℚ) false : FV binary64) >>= floor) = .ok (fin (12:ℕ) false) := by
  have := C98_log10_floor (f := binary64) rfl 9999999999999 (by norm_num) (by norm_num)
  rwa [show Nat.log 10 9999999999999 = 12 from (Nat.log_eq_iff (by norm_num)).2 ⟨by norm_num, by norm_num⟩] at this

example : (log2 (fin ((65535:ℕ):ℚ) false : FV binary32) >>= floor) = .ok (fin (15:ℕ) false) := by
  have := C98_log2_floor (f := binary32) rfl 65535 (by norm_num) (by norm_num) (by
    intro k h
    have h1 : k < 16 := (Nat.pow_lt_pow_iff_right (by norm_num : 1 < 2)).1 (by rw [← h]; norm_num)
    interval_cases k <;> omega)
  rwa [show Nat.log 2 65535 = 15 from (Nat.log_eq_iff (by norm_num)).2 ⟨by norm_num, by norm_num⟩] at this

example : (log2 (fin (2 ^ 1023) false : FV binary64) >>= round) = .ok (fin (1023:ℕ) false) :=
  C98_log2_round (f := binary64) rfl 1023 (by norm_num) (by decide)

example : (pow (fin ((3:ℕ):ℚ) false : FV binary64) (fin ((25:ℕ):ℚ) false) >>= round) = .ok (fin (3 ^ 25 : ℕ) false) :=
  C98_pow_round (f := binary64) rfl 3 25 (by norm_num) (by norm_num) false (by decide)

example : (log_binomial_coef (fin ((30:ℕ):ℚ) false : FV binary64) (fin ((15:ℕ):ℚ) false) >>= fun l => exp l >>= round) =
    .ok (fin ((30:ℕ).choose 15) false) :=
  C98_binomial_round (f := binary64) rfl 30 15 false false (by norm_num) (by norm_num) (by decide)

end Gcem.Props
