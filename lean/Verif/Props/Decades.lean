import Verif.Model.Special
import Verif.Props.LogAcc

/-! # C101: negative powers of ten -/

namespace Gcem.Props
open FV

variable {f : Fmt}

theorem ten_log (hf : f.exact = false) {x m δ : ℚ} {z w : Bool} {k j : ℤ} (hx : Valid (fin x z : FV f)) (hmn : minNormal f ≤ x) (h1 : x < 1 / 2)
    (a : mantissa recFuel (fin x z : FV f) = .ok (fin m w)) (b : find_exponent recFuel (fin x z : FV f) 0 = .ok k) (m1 : 1 ≤ m) (m2 : m ≤ 10)
    (hk : |k| ≤ 6000) (hj : (j = k ∧ m ≤ 1 + δ) ∨ (j = k + 1 ∧ 10 ≤ m * (1 + δ))) :
    ∃ r w, log (fin x z : FV f) = .ok (fin r w) ∧ |(r:ℝ) - j * Real.log 10| ≤ (15 + 10 * |(k:ℝ)|) * (1 / 2 ^ f.prec) + δ := by
  have hq : 0 < x := lt_of_lt_of_le (minNormal_pos f) hmn
  rw [log_normal hmn (log_not_near_one (Or.inl h1) hq.le hx), if_pos (Or.inl h1), log_breakup_eq a m1 m2 b]
  obtain ⟨r, w', e1, e2⟩ := log_breakup_err (f := f) (w := w) (k := k) hf m1 m2 (by rw [abs_le] at *; omega)
  refine ⟨r, w', by rw [e1], ?_⟩
  rw [← uro_eq]
  have m1' : (1:ℝ) ≤ m := by exact_mod_cast m1
  have m2' : (m:ℝ) ≤ 10 := by exact_mod_cast m2
  have hm : |Real.log m + k * Real.log 10 - j * Real.log 10| ≤ δ := by
    rcases hj with ⟨rfl, h⟩ | ⟨rfl, h⟩
    · have h' : (m:ℝ) ≤ 1 + δ := by exact_mod_cast h
      have l0 := Real.log_nonneg m1'
      have l1 := Real.log_le_sub_one_of_pos (show (0:ℝ) < m by linarith)
      rw [add_sub_cancel_right, abs_of_nonneg l0]
      linarith
    · have h' : (10:ℝ) ≤ m * (1 + δ) := by exact_mod_cast h
      have l0 : Real.log m ≤ Real.log 10 := Real.log_le_log (by linarith) m2'
      have d0 : (0:ℝ) < 1 + δ := by by_contra hc; push Not at hc; nlinarith
      have l1 : Real.log 10 ≤ Real.log m + Real.log (1 + δ) := by
        rw [← Real.log_mul (by linarith) d0.ne']; exact Real.log_le_log (by norm_num) h'
      have l2 := Real.log_le_sub_one_of_pos d0
      push_cast
      rw [abs_le]; constructor <;> linarith
  have := abs_sub_le (r:ℝ) (Real.log m + k * Real.log 10) (j * Real.log 10)
  linarith

/-- decimal mantissa and exponent of the number next to `10^-k` together stand for `10^j` -/
def tenIs (f : Fmt) (k : ℕ) (j : ℤ) : Bool :=
  match mk f (1 / 10 ^ k) false with
  | fin x z => decide (minNormal f ≤ x) && decide (x < 1 / 2) &&
    match mantissa recFuel (fin x z : FV f), find_exponent recFuel (fin x z : FV f) 0 with
    | .ok (fin m _), .ok e => decide (1 ≤ m) && decide (m ≤ 10) && decide (|e| ≤ (k:ℤ) + 1) &&
        ((decide (j = e) && decide (m ≤ 1 + (k + 1) * uro f)) || (decide (j = e + 1) && decide (10 ≤ m * (1 + (k + 1) * uro f))))
    | _, _ => false
  | _ => false

theorem tenIs_spec (hf : f.exact = false) {k : ℕ} {j : ℤ} (hk : k ≤ 5000) (h : tenIs f k j = true) :
    ∃ r w, log (mk f (1 / 10 ^ k) false) = .ok (fin r w) ∧ |(r:ℝ) - j * Real.log 10| ≤ (26 + 11 * k) / 2 ^ f.prec := by
  unfold tenIs at h
  have hv : Valid (mk f (1 / 10 ^ k) false) := valid_mk _ _
  rcases e : mk f (1 / 10 ^ k) false with _ | _ | ⟨x, z⟩
  · rw [e] at h; simp at h
  · rw [e] at h; simp at h
  rw [e] at h hv
  simp only [Bool.and_eq_true, decide_eq_true_eq] at h
  obtain ⟨⟨h1, h2⟩, h3⟩ := h
  rcases ea : mantissa recFuel (fin x z : FV f) with er | v
  · rw [ea] at h3; simp at h3
  rcases eb : find_exponent recFuel (fin x z : FV f) 0 with er | k'
  · rw [ea, eb] at h3; rcases v with _ | _ | ⟨m, w⟩ <;> simp at h3
  rw [ea, eb] at h3
  rcases v with _ | _ | ⟨m, w⟩
  · simp at h3
  · simp at h3
  simp only [Bool.and_eq_true, Bool.or_eq_true, decide_eq_true_eq] at h3
  obtain ⟨⟨⟨m1, m2⟩, m3⟩, m4⟩ := h3
  obtain ⟨r, w', el, bl⟩ := ten_log hf hv h1 h2 ea eb m1 m2 (by omega) m4
  refine ⟨r, w', el, bl.trans ?_⟩
  have m3' : |(k':ℝ)| ≤ k + 1 := by exact_mod_cast m3
  rw [← uro_eq, div_eq_mul_one_div _ ((2:ℝ) ^ f.prec), ← uro_eq]
  have := mul_le_mul_of_nonneg_right m3' (uro_pos_real f).le
  push_cast
  linarith

theorem ten_float : ∀ k ≤ 37, 1 ≤ k → tenIs binary32 k (if k ∈ [1, 3, 5, 9, 13, 17, 18, 21, 22] then -(k:ℤ) else 1 - k) = true := by
  decide +kernel

theorem ten_double : ∀ k ≤ 30, 1 ≤ k → tenIs binary64 k (if k ∈ [11, 12, 13, 14] then 1 - (k:ℤ) else if k ∈ [21, 29] then -k - 1 else -k) = true := by
  decide +kernel

theorem ten_ldouble : ∀ k ≤ 15, 1 ≤ k → tenIs x87 k (if k = 2 then 1 - (k:ℤ) else if k ∈ [1, 5, 7, 9, 11, 13, 14, 15] then -k - 1 else -k) = true := by
  decide +kernel

/-- C101: `log` at the float next to `10^-k`, for all `k` for which that is a normal number. -/
theorem C101_log_float (k : ℕ) (h1 : 1 ≤ k) (h2 : k ≤ 37) :
    ∃ r w, log (mk binary32 (1 / 10 ^ k) false) = .ok (fin r w) ∧
      |(r:ℝ) - ((if k ∈ [1, 3, 5, 9, 13, 17, 18, 21, 22] then -(k:ℤ) else 1 - k : ℤ) : ℝ) * Real.log 10| ≤ (26 + 11 * k) / 2 ^ 24 :=
  tenIs_spec (f := binary32) rfl (by omega) (ten_float k h2 h1)

/-- C101: the same in double for `k ≤ 30`. -/
theorem C101_log_double (k : ℕ) (h1 : 1 ≤ k) (h2 : k ≤ 30) :
    ∃ r w, log (mk binary64 (1 / 10 ^ k) false) = .ok (fin r w) ∧
      |(r:ℝ) - ((if k ∈ [11, 12, 13, 14] then 1 - (k:ℤ) else if k ∈ [21, 29] then -k - 1 else -k : ℤ) : ℝ) * Real.log 10| ≤ (26 + 11 * k) / 2 ^ 53 :=
  tenIs_spec (f := binary64) rfl (by omega) (ten_double k h2 h1)

/-- C101: the same in long double for `k ≤ 15`. -/
theorem C101_log_long_double (k : ℕ) (h1 : 1 ≤ k) (h2 : k ≤ 15) :
    ∃ r w, log (mk x87 (1 / 10 ^ k) false) = .ok (fin r w) ∧
      |(r:ℝ) - ((if k = 2 then 1 - (k:ℤ) else if k ∈ [1, 5, 7, 9, 11, 13, 14, 15] then -k - 1 else -k : ℤ) : ℝ) * Real.log 10|
        ≤ (26 + 11 * k) / 2 ^ 64 :=
  tenIs_spec (f := x87) rfl (by omega) (ten_ldouble k h2 h1)

/-- C101: `log10(0.01f) == -1`, `log10(0.1L) == -2`. -/
theorem C101_log10 : log10 (mk binary32 (1 / 100) false) = .ok (fin (-1) false) ∧ log10 (mk x87 (1 / 10) false) = .ok (fin (-2) false) := by
  refine ⟨?_, ?_⟩ <;> decide +kernel

/-- C101: `pow(0.01f, 1.0f)` is ten times too large, `pow(0.1L, 1.0L)` ten times too small. -/
theorem C101_pow : (∃ r, pow (mk binary32 (1 / 100) false) (i 1 : FV binary32) = .ok (fin r false) ∧ 999 / 10000 < r) ∧
    ∃ r, pow (mk x87 (1 / 10) false) (i 1 : FV x87) = .ok (fin r false) ∧ r < 1001 / 100000 := by
  refine ⟨⟨6710885 / 67108864, by decide +kernel, by norm_num⟩, ⟨1475739525896764129 / 147573952589676412928, by decide +kernel, by norm_num⟩⟩

/-- C101: `incomplete_beta(1.0f, 1.0f, 0.01f)` and `incomplete_gamma(1.0f, 0.01f)` are ten times too large. -/
theorem C101_incomplete : (∃ r, incomplete_beta (i 1 : FV binary32) (i 1) (mk binary32 (1 / 100) false) = .ok (fin r false) ∧ 99 / 1000 < r) ∧
    ∃ r, incomplete_gamma (i 1 : FV binary32) (mk binary32 (1 / 100) false) = .ok (fin r false) ∧ 99 / 1000 < r := by
  refine ⟨⟨13421773 / 134217728, by decide +kernel, by norm_num⟩, ⟨13354883 / 134217728, by decide +kernel, by norm_num⟩⟩

/-- `log(0.001f)` is right, `log(0.0001f)` is close to `ln(0.001)` -/
example : (∃ r w, log (mk binary32 (1 / 10 ^ 3) false) = .ok (fin r w) ∧ |(r:ℝ) - (-3) * Real.log 10| ≤ 59 / 2 ^ 24) ∧
    ∃ r w, log (mk binary32 (1 / 10 ^ 4) false) = .ok (fin r w) ∧ |(r:ℝ) - (-3) * Real.log 10| ≤ 70 / 2 ^ 24 := by
  have h3 := C101_log_float 3 (by norm_num) (by norm_num)
  have h4 := C101_log_float 4 (by norm_num) (by norm_num)
  norm_num at h3 h4 ⊢
  exact ⟨h3, h4⟩

/-- `log(1e-12)` and `log(1e-13L)` -/
example : (∃ r w, log (mk binary64 (1 / 10 ^ 12) false) = .ok (fin r w) ∧ |(r:ℝ) - (-11) * Real.log 10| ≤ 158 / 2 ^ 53) ∧
    ∃ r w, log (mk x87 (1 / 10 ^ 13) false) = .ok (fin r w) ∧ |(r:ℝ) - (-14) * Real.log 10| ≤ 169 / 2 ^ 64 := by
  have h3 := C101_log_double 12 (by norm_num) (by norm_num)
  have h4 := C101_log_long_double 13 (by norm_num) (by norm_num)
  norm_num at h3 h4 ⊢
  exact ⟨h3, h4⟩

end Gcem.Props
