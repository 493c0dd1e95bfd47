import Verif.Fp.Err

/-!
# Relative error in units of the roundoff, for positive values

`Rl v q c`: `v` is finite and within `c` (slightly enlarged) unit roundoffs, relatively, of the positive number `q`.
-/

namespace Gcem
open FV
variable {f : Fmt}

def Rl (v : FV f) (q c : ℚ) : Prop := 0 < q ∧ c ≤ 9000 ∧ ∃ a, Is v a ∧ |a - q| ≤ c * wro f * q

theorem Is.rl {v : FV f} {q : ℚ} (h : Is v q) (hq : 0 < q) : Rl v q 0 := ⟨hq, by norm_num, q, h, by simp⟩

theorem Rl.mono {v : FV f} {q c c' : ℚ} (h : Rl v q c) (hc : c ≤ c') (h' : c' ≤ 9000) : Rl v q c' := by
  obtain ⟨hq, -, a, h1, h2⟩ := h
  refine ⟨hq, h', a, h1, h2.trans ?_⟩
  have := wro_pos f
  gcongr

theorem Rl.nonneg {v : FV f} {q c : ℚ} (h : Rl v q c) : 0 ≤ c := by
  obtain ⟨hq, -, a, -, h2⟩ := h
  have hw := mul_pos (wro_pos f) hq
  by_contra hc
  push Not at hc
  have := abs_nonneg (a - q)
  nlinarith

theorem Rl.small {c : ℚ} (h : c ≤ 9000) : c * wro f ≤ 9 / 10000 := by
  have hw := wro_pos f
  have hw1 := wro_le f
  nlinarith

theorem rl_bounds {a q c : ℚ} (hq : 0 < q) (hc : c ≤ 9000) (h : |a - q| ≤ c * wro f * q) :
    9991 / 10000 * q ≤ a ∧ a ≤ 10009 / 10000 * q := by
  have h1 := mul_le_mul_of_nonneg_right (Rl.small (f := f) hc) hq.le
  have h2 := abs_le.1 (h.trans h1)
  constructor <;> linarith [h2.1, h2.2]

theorem minNormal_le' (f : Fmt) : minNormal f ≤ 1 / 2 ^ 125 := by
  have h := minNormal_le f
  have : pow2 (-126) ≤ 1 / 2 ^ 125 := by norm_num [pow2_eq]
  linarith

/-- rounding step shared by all operations -/
theorem rl_round {r q c : ℚ} (hq1 : 1 / 2 ^ 120 ≤ q) (hq2 : q ≤ 2 ^ 120) (hc : c ≤ 8999)
    (h : |r - q| ≤ c * wro f * q) :
    overflows f (rnd f r) = false ∧ |rnd f r - q| ≤ (c + 1) * wro f * q := by
  have hq : 0 < q := lt_of_lt_of_le (by norm_num) hq1
  obtain ⟨b1, b2⟩ := rl_bounds (f := f) hq (by linarith) h
  have hr : 0 < r := lt_of_lt_of_le (by positivity) b1
  refine ⟨nov ?_, ?_⟩
  · rw [abs_of_pos hr]
    have : (10009 / 10000 : ℚ) * 2 ^ 120 ≤ 2 ^ 127 := by norm_num
    linarith
  · have hm : minNormal f ≤ |r| := by
      rw [abs_of_pos hr]
      have : (1 / 2 ^ 125 : ℚ) ≤ 9991 / 10000 * (1 / 2 ^ 120) := by norm_num
      linarith [minNormal_le' f]
    have h1 := rnd_err_rel hm
    rw [abs_of_pos hr] at h1
    have hu := uro_pos f
    have h2 : uro f * r ≤ wro f * q := by
      unfold wro
      calc uro f * r ≤ uro f * (1001 / 1000 * q) := mul_le_mul_of_nonneg_left (by linarith) hu.le
        _ = _ := by ring
    have e : rnd f r - q = (rnd f r - r) + (r - q) := by ring
    rw [e]
    refine (abs_add_le _ _).trans ((add_le_add (h1.trans h2) h).trans (le_of_eq (by ring)))

theorem Rl.mul {v v' : FV f} {p q c c' c'' : ℚ} (hv : Rl v p c) (hv' : Rl v' q c')
    (h1 : 1 / 2 ^ 120 ≤ p * q) (h2 : p * q ≤ 2 ^ 120) (hc : c + c' + c * c' / 10 ^ 7 + 1 ≤ c'') (hc' : c'' ≤ 9000) :
    Rl (v * v') (p * q) c'' := by
  have n1 := hv.nonneg
  have n2 := hv'.nonneg
  obtain ⟨hp, -, a, i1, a1⟩ := hv
  obtain ⟨hq, -, b, i2, b1⟩ := hv'
  have hw := wro_pos f
  have hw1 := wro_le f
  have h : |a * b - p * q| ≤ (c + c' + c * c' / 10 ^ 7) * wro f * (p * q) := by
    have e : a * b - p * q = (a - p) * q + p * (b - q) + (a - p) * (b - q) := by ring
    rw [e]
    have m1 : |(a - p) * q| ≤ c * wro f * p * q := by
      rw [abs_mul, abs_of_pos hq]; exact mul_le_mul_of_nonneg_right a1 hq.le
    have m2 : |p * (b - q)| ≤ p * (c' * wro f * q) := by
      rw [abs_mul, abs_of_pos hp]; exact mul_le_mul_of_nonneg_left b1 hp.le
    have m3 : |(a - p) * (b - q)| ≤ c * wro f * p * (c' * wro f * q) := by
      rw [abs_mul]; exact mul_le_mul a1 b1 (abs_nonneg _) (by positivity)
    have m4 : c * wro f * p * (c' * wro f * q) ≤ c * c' / 10 ^ 7 * wro f * (p * q) := by
      have : c * c' * wro f * (p * q) * wro f ≤ c * c' * wro f * (p * q) * (1 / 10000000) :=
        mul_le_mul_of_nonneg_left hw1 (by positivity)
      calc _ = c * c' * wro f * (p * q) * wro f := by ring
        _ ≤ _ := this
        _ = _ := by ring
    refine (abs_add_le _ _).trans ((add_le_add ((abs_add_le _ _).trans (add_le_add m1 m2)) (m3.trans m4)).trans
      (le_of_eq (by ring)))
  obtain ⟨o, r⟩ := rl_round h1 h2 (by linarith) h
  refine ⟨mul_pos hp hq, hc', _, i1.mul i2 o, r.trans ?_⟩
  have := mul_pos hp hq
  gcongr

theorem Rl.div {v v' : FV f} {p q c c' c'' : ℚ} (hv : Rl v p c) (hv' : Rl v' q c')
    (h1 : 1 / 2 ^ 120 ≤ p / q) (h2 : p / q ≤ 2 ^ 120) (hc : (c + c') * (1 + c' * (11 / 10 ^ 8)) + 1 ≤ c'')
    (hc' : c'' ≤ 9000) : Rl (v / v') (p / q) c'' := by
  have n1 := hv.nonneg
  have n2 := hv'.nonneg
  obtain ⟨hp, -, a, i1, a1⟩ := hv
  obtain ⟨hq, hcb, b, i2, b1⟩ := hv'
  have hw := wro_pos f
  have hw1 := wro_le f
  have hb2 := rl_bounds hq hcb b1
  have hb : 0 < b := lt_of_lt_of_le (by positivity) hb2.1
  have h : |a / b - p / q| ≤ (c + c') * (1 + c' * (11 / 10 ^ 8)) * wro f * (p / q) := by
    have e : a / b - p / q = ((a - p) * q - p * (b - q)) / (b * q) := by field_simp; ring
    rw [e, abs_div, abs_of_pos (mul_pos hb hq), div_le_iff₀ (mul_pos hb hq)]
    have m1 : |(a - p) * q| ≤ c * wro f * p * q := by
      rw [abs_mul, abs_of_pos hq]; exact mul_le_mul_of_nonneg_right a1 hq.le
    have m2 : |p * (b - q)| ≤ p * (c' * wro f * q) := by
      rw [abs_mul, abs_of_pos hp]; exact mul_le_mul_of_nonneg_left b1 hp.le
    have m3 : q ≤ (1 + c' * (11 / 10 ^ 8)) * b := by
      have l1 : (1 - c' * wro f) * q ≤ b := by
        have := (abs_le.1 b1).1
        linarith
      have l2 : 1 ≤ (1 + c' * (11 / 10 ^ 8)) * (1 - c' * wro f) := by
        have k1 : c' * wro f ≤ c' * (1 / 10000000) := mul_le_mul_of_nonneg_left hw1 n2
        have k2 : (1 + c' * (11 / 10 ^ 8)) * (1 - c' * (1 / 10000000)) ≤ (1 + c' * (11 / 10 ^ 8)) * (1 - c' * wro f) :=
          mul_le_mul_of_nonneg_left (by linarith) (by positivity)
        nlinarith
      calc q ≤ (1 + c' * (11 / 10 ^ 8)) * (1 - c' * wro f) * q := le_mul_of_one_le_left hq.le l2
        _ = (1 + c' * (11 / 10 ^ 8)) * ((1 - c' * wro f) * q) := by ring
        _ ≤ _ := mul_le_mul_of_nonneg_left l1 (by positivity)
    calc _ ≤ c * wro f * p * q + p * (c' * wro f * q) := (abs_sub _ _).trans (add_le_add m1 m2)
      _ = (c + c') * wro f * p * q := by ring
      _ ≤ (c + c') * wro f * p * ((1 + c' * (11 / 10 ^ 8)) * b) := mul_le_mul_of_nonneg_left m3 (by positivity)
      _ = _ := by field_simp
  obtain ⟨o, r⟩ := rl_round h1 h2 (by linarith) h
  have hpq := div_pos hp hq
  refine ⟨hpq, hc', _, i1.div i2 hb.ne' o, r.trans ?_⟩
  gcongr

theorem Rl.add {v v' : FV f} {p q c c' C c'' : ℚ} (hv : Rl v p c) (hv' : Rl v' q c')
    (h1 : 1 / 2 ^ 120 ≤ p + q) (h2 : p + q ≤ 2 ^ 120) (hC : c * p + c' * q ≤ C * (p + q))
    (hc : C + 1 ≤ c'') (hc' : c'' ≤ 9000) : Rl (v + v') (p + q) c'' := by
  obtain ⟨hp, -, a, i1, a1⟩ := hv
  obtain ⟨hq, -, b, i2, b1⟩ := hv'
  have hw := wro_pos f
  have h : |a + b - (p + q)| ≤ C * wro f * (p + q) := by
    have e : a + b - (p + q) = (a - p) + (b - q) := by ring
    rw [e]
    refine (abs_add_le _ _).trans ((add_le_add a1 b1).trans ?_)
    calc _ = (c * p + c' * q) * wro f := by ring
      _ ≤ C * (p + q) * wro f := mul_le_mul_of_nonneg_right hC hw.le
      _ = _ := by ring
  obtain ⟨o, r⟩ := rl_round h1 h2 (by linarith) h
  have hpq := add_pos hp hq
  refine ⟨hpq, hc', _, i1.add i2 o, r.trans ?_⟩
  gcongr

/-- a difference: the relative error is magnified by the cancellation -/
theorem Rl.sub {v v' : FV f} {p q c c' C c'' : ℚ} (hv : Rl v p c) (hv' : Rl v' q c')
    (h1 : 1 / 2 ^ 120 ≤ p - q) (h2 : p - q ≤ 2 ^ 120) (hC : c * p + c' * q ≤ C * (p - q))
    (hc : C + 1 ≤ c'') (hc' : c'' ≤ 9000) : Rl (v - v') (p - q) c'' := by
  obtain ⟨hp, -, a, i1, a1⟩ := hv
  obtain ⟨hq, -, b, i2, b1⟩ := hv'
  have hw := wro_pos f
  have h : |a - b - (p - q)| ≤ C * wro f * (p - q) := by
    have e : a - b - (p - q) = (a - p) - (b - q) := by ring
    rw [e]
    refine (abs_sub _ _).trans ((add_le_add a1 b1).trans ?_)
    calc _ = (c * p + c' * q) * wro f := by ring
      _ ≤ C * (p - q) * wro f := mul_le_mul_of_nonneg_right hC hw.le
      _ = _ := by ring
  obtain ⟨o, r⟩ := rl_round h1 h2 (by linarith) h
  have hpq : 0 < p - q := lt_of_lt_of_le (by norm_num) h1
  refine ⟨hpq, hc', _, i1.sub i2 o, r.trans ?_⟩
  gcongr

end Gcem
