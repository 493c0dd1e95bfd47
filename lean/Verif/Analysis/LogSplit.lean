import Verif.Analysis.SqrtScale

/-!
# The decimal mantissa and exponent used by `log`

Termination of `mantissa` and `find_exponent` and the relation of their results to the argument.
-/

namespace Gcem
open FV
variable {f : Fmt}

/-- `θ` is a product of `k` factors `1 + δ` with `|δ| ≤ u`. -/
def Near (u : ℚ) (k : ℕ) (θ : ℚ) : Prop := (1 - u) ^ k ≤ θ ∧ θ ≤ (1 + u) ^ k

theorem uro_le_rat (f : Fmt) : uro f ≤ 1 / 16777216 := by
  have h := uro_le f
  have : ((uro f : ℚ) : ℝ) ≤ ((1 / 16777216 : ℚ) : ℝ) := by push_cast; exact h
  exact_mod_cast this

theorem uro_lt_one (f : Fmt) : uro f < 1 / 16 := by have := uro_le_rat f; linarith

theorem near_zero (u : ℚ) : Near u 0 1 := by simp [Near]

theorem near_pos {u θ : ℚ} {k : ℕ} (hu : u < 1) (h : Near u k θ) : 0 < θ :=
  lt_of_lt_of_le (pow_pos (by linarith) _) h.1

theorem near_mul {u θ η : ℚ} {k l : ℕ} (hu0 : 0 ≤ u) (hu : u < 1) (h : Near u k θ) (h2 : Near u l η) :
    Near u (k + l) (θ * η) := by
  have h3 := near_pos hu h
  have h4 := near_pos hu h2
  constructor
  · rw [pow_add]
    exact mul_le_mul h.1 h2.1 (pow_nonneg (by linarith) _) h3.le
  · rw [pow_add]
    exact mul_le_mul h.2 h2.2 h4.le (pow_nonneg (by linarith) _)

theorem near_mono {u θ : ℚ} {k l : ℕ} (hu0 : 0 ≤ u) (hu : u < 1) (hkl : k ≤ l) (h : Near u k θ) : Near u l θ :=
  ⟨(pow_le_pow_of_le_one (by linarith) (by linarith) hkl).trans h.1,
   h.2.trans (pow_le_pow_right₀ (by linarith) hkl)⟩

theorem rnd_near {q : ℚ} (h : minNormal f ≤ q) : ∃ θ, Near (uro f) 1 θ ∧ rnd f q = q * θ := by
  have h0 := minNormal_pos f
  have hq : 0 < q := by linarith
  have h1 := rnd_err_rel (f := f) (q := q) (by rw [abs_of_pos hq]; exact h)
  rw [abs_of_pos hq] at h1
  obtain ⟨a, b⟩ := abs_le.1 h1
  refine ⟨rnd f q / q, ⟨?_, ?_⟩, by field_simp⟩
  · rw [pow_one, le_div_iff₀ hq]; nlinarith
  · rw [pow_one, div_le_iff₀ hq]; nlinarith

theorem rep_mn (f : Fmt) : Rep f (minNormal f) :=
  rep_pow2 (by rcases f with ⟨⟨⟩, ⟨⟩⟩ <;> decide)

theorem is_ten : Is (i 10 : FV f) 10 := by have := is_i (f := f) (n := 10) (by decide); simpa using this
theorem rep_ten : Rep f 10 := by
  have := rep_int (f := f) (n := 10) (by have := two_pow_prec f; simp; omega); simpa using this
theorem rep_one : Rep f 1 := by
  have := rep_int (f := f) (n := 1) (by have := two_pow_prec f; simp; omega); simpa using this

theorem nov_small {q : ℚ} (h : |q| ≤ 16777216) : overflows f (rnd f q) = false := nov (h.trans (by norm_num))

/-- `mantissa` on arguments at most 10. -/
theorem mantissa_up (n : ℕ) : ∀ (q : ℚ) (z : Bool) (fuel : ℕ), n < fuel → minNormal f ≤ q → q ≤ 10 →
    1 ≤ q * 2 ^ n → ∃ (m : ℚ) (w : Bool) (k : ℕ) (θ : ℚ), mantissa fuel (fin q z : FV f) = .ok (fin m w) ∧
      1 ≤ m ∧ m ≤ 10 ∧ Near (uro f) k θ ∧ m = q * 10 ^ k * θ ∧ k ≤ n := by
  induction n with
  | zero =>
    intro q z fuel hfu h1 h2 h3
    obtain ⟨fu, rfl⟩ : ∃ fu, fuel = fu + 1 := ⟨fuel - 1, by omega⟩
    have h4 : 1 ≤ q := by simpa using h3
    refine ⟨q, z, 0, 1, ?_, h4, h2, near_zero _, by ring, le_rfl⟩
    unfold mantissa
    rw [if_neg, if_neg]
    · rw [gt_iff, is_ten.lt_iff (is_fin q z)]; exact not_lt.2 h2
    · rw [i_one, fin_lt]; exact not_lt.2 h4
  | succ n ih =>
    intro q z fuel hfu h1 h2 h3
    obtain ⟨fu, rfl⟩ : ∃ fu, fuel = fu + 1 := ⟨fuel - 1, by omega⟩
    have hq0 : 0 < q := lt_of_lt_of_le (minNormal_pos f) h1
    rcases lt_or_ge q 1 with h4 | h4
    · obtain ⟨w, hw⟩ := (is_fin (f := f) q z).mul is_ten
        (nov_small (by rw [abs_of_pos (by linarith)]; linarith))
      obtain ⟨θ, ht, hr⟩ := rnd_near (f := f) (q := q * 10) (by linarith)
      have ht1 := ht.1
      have hu := uro_lt_one f
      rw [pow_one] at ht1
      obtain ⟨m, w', k, θ', hm, a, b, c, e, hk⟩ := ih (rnd f (q * 10)) w fu (by omega)
        (le_rnd_of_rep (rep_mn f) (by linarith)) (rnd_le_of_rep rep_ten (by linarith)) (by
          rw [hr]
          have : (0:ℚ) < 2 ^ n := by positivity
          rw [pow_succ] at h3
          have h5 : 2 ≤ 10 * θ := by linarith
          calc (1:ℚ) ≤ q * (2 ^ n * 2) := h3
            _ = q * 2 ^ n * 2 := by ring
            _ ≤ q * 2 ^ n * (10 * θ) := by gcongr
            _ = _ := by ring)
      refine ⟨m, w', k + 1, θ' * θ, ?_, a, b, near_mul (uro_pos f).le (by linarith) c ht, ?_, by omega⟩
      · unfold mantissa
        rw [if_pos (by rw [i_one, fin_lt]; exact h4), hw]
        exact hm
      · rw [e, hr]; ring
    · refine ⟨q, z, 0, 1, ?_, h4, h2, near_zero _, by ring, by omega⟩
      unfold mantissa
      rw [if_neg, if_neg]
      · rw [gt_iff, is_ten.lt_iff (is_fin q z)]; exact not_lt.2 h2
      · rw [i_one, fin_lt]; exact not_lt.2 h4

theorem mn_le_tiny (f : Fmt) : minNormal f ≤ 1 / 2 ^ 126 := by
  refine (minNormal_le f).trans (le_of_eq ?_)
  rw [pow2_eq, zpow_neg]; norm_num

/-- A `double` literal of moderate size, up to two roundings. -/
theorem is_d_near {q : ℚ} (h1 : 1 / 2 ^ 100 ≤ q) (h2 : q ≤ 2 ^ 100) :
    ∃ r, Is (d q : FV f) r ∧ q * (1 - 1 / 1000000) ≤ r ∧ r ≤ q * (1 + 1 / 1000000) := by
  have hq : 0 < q := lt_of_lt_of_le (by positivity) h1
  have t1 : (1:ℚ) / 2 ^ 126 ≤ 1 / 2 ^ 100 := by norm_num
  obtain ⟨θ, ⟨a, b⟩, hr⟩ := rnd_near (f := f.dbl) (q := q) (by have := mn_le_tiny f.dbl; linarith)
  have hu := uro_le_rat f.dbl
  rw [pow_one] at a b
  have h3 : 1 / 2 ^ 126 ≤ q * θ := by
    have : (1:ℚ) / 2 ^ 126 ≤ 1 / 2 ^ 100 * (1 / 2) := by norm_num
    refine this.trans ?_
    apply mul_le_mul h1 _ (by norm_num) hq.le
    linarith
  obtain ⟨η, ⟨a', b'⟩, hr'⟩ := rnd_near (f := f) (q := q * θ) (by have := mn_le_tiny f; linarith)
  have hu' := uro_le_rat f
  rw [pow_one] at a' b'
  refine ⟨q * θ * η, ?_, ?_, ?_⟩
  · have := is_mk (f := f) (q := rnd f.dbl q) (zs := false) (by
      rw [hr]
      refine nov ?_
      rw [abs_of_pos (by nlinarith)]
      calc q * θ ≤ 2 ^ 100 * 2 := by
            apply mul_le_mul h2 _ (by linarith) (by norm_num)
            linarith
        _ ≤ 2 ^ 127 := by norm_num)
    rw [← hr', ← hr]; exact this
  · rw [mul_assoc]
    apply mul_le_mul_of_nonneg_left _ hq.le
    nlinarith
  · rw [mul_assoc]
    apply mul_le_mul_of_nonneg_left _ hq.le
    nlinarith

theorem is_1em3 : ∃ c, Is (d 1e-3 : FV f) c ∧ 999 / 1000000 ≤ c ∧ c ≤ 1001 / 1000000 := by
  obtain ⟨r, h, a, b⟩ := is_d_near (f := f) (q := 1e-3) (by norm_num) (by norm_num)
  exact ⟨r, h, by norm_num at a ⊢; linarith, by norm_num at b ⊢; linarith⟩

theorem is_1em1 : ∃ c, Is (d 1e-1 : FV f) c ∧ 999 / 10000 ≤ c ∧ c ≤ 1001 / 10000 := by
  obtain ⟨r, h, a, b⟩ := is_d_near (f := f) (q := 1e-1) (by norm_num) (by norm_num)
  exact ⟨r, h, by norm_num at a ⊢; linarith, by norm_num at b ⊢; linarith⟩

theorem find_exponent_done {q : ℚ} {z : Bool} {fuel : ℕ} {e : ℤ} (h1 : 1 ≤ q) (h2 : q ≤ 10) :
    find_exponent (fuel + 1) (fin q z : FV f) e = .ok e := by
  obtain ⟨c3, i3, -, u3⟩ := is_1em3 (f := f)
  obtain ⟨c1, i1, -, u1⟩ := is_1em1 (f := f)
  have hq := is_fin (f := f) q z
  unfold find_exponent
  rw [if_neg (by rw [hq.lt_iff i3]; linarith), if_neg (by rw [hq.lt_iff i1]; linarith),
    if_neg (by rw [i_one, fin_lt]; linarith), if_neg (by rw [gt_iff, is_ten.lt_iff hq]; linarith),
    if_neg (by rw [gt_iff, is_1e2.lt_iff hq]; linarith), if_neg (by rw [gt_iff, is_1e4.lt_iff hq]; linarith)]

theorem find_exponent_down {q : ℚ} {z : Bool} {fuel : ℕ} {e : ℤ} (h1 : 10 < q) :
    find_exponent (fuel + 1) (fin q z : FV f) e = find_exponent fuel (fin q z / i 10 : FV f) (e + 1) := by
  obtain ⟨c3, i3, -, u3⟩ := is_1em3 (f := f)
  obtain ⟨c1, i1, -, u1⟩ := is_1em1 (f := f)
  have hq := is_fin (f := f) q z
  conv_lhs => unfold find_exponent
  rw [if_neg (by rw [hq.lt_iff i3]; linarith), if_neg (by rw [hq.lt_iff i1]; linarith),
    if_neg (by rw [i_one, fin_lt]; linarith), if_pos (by rw [gt_iff, is_ten.lt_iff hq]; linarith)]

theorem mantissa_done {q : ℚ} {z : Bool} {fuel : ℕ} (h1 : 1 ≤ q) (h2 : q ≤ 10) :
    mantissa (fuel + 1) (fin q z : FV f) = .ok (fin q z) := by
  unfold mantissa
  rw [if_neg, if_neg]
  · rw [gt_iff, is_ten.lt_iff (is_fin q z)]; exact not_lt.2 h2
  · rw [i_one, fin_lt]; exact not_lt.2 h1

theorem mantissa_down {q : ℚ} {z : Bool} {fuel : ℕ} (h1 : 10 < q) :
    mantissa (fuel + 1) (fin q z : FV f) = mantissa fuel (fin q z / i 10 : FV f) := by
  conv_lhs => unfold mantissa
  rw [if_neg, if_pos]
  · rw [gt_iff, is_ten.lt_iff (is_fin q z)]; exact h1
  · rw [i_one, fin_lt]; linarith

/-- One division by ten. -/
theorem div_ten {q : ℚ} {z : Bool} (h1 : 10 < q) (ho : overflows f q = false) :
    ∃ w θ, (fin q z / i 10 : FV f) = fin (q / 10 * θ) w ∧ Near (uro f) 1 θ ∧ 1 ≤ q / 10 * θ ∧
      overflows f (q / 10 * θ) = false ∧ q / 10 * θ ≤ q / 2 := by
  obtain ⟨θ, ht, hr⟩ := rnd_near (f := f) (q := q / 10) (by have := minNormal_lt_one f; linarith)
  have h10 : (0:ℚ) < q / 10 := by linarith
  have hu := uro_le_rat f
  have ht2 := ht.2
  have ht1 := ht.1
  rw [pow_one] at ht1 ht2
  have hov : overflows f (rnd f (q / 10)) = false := by
    rw [hr]
    refine overflows_of_abs_le (b := q) ?_ ho
    rw [abs_of_pos (by nlinarith), abs_of_pos (by linarith)]
    nlinarith
  obtain ⟨w, hw⟩ := (is_fin (f := f) q z).div is_ten (by norm_num) hov
  rw [hr] at hw
  refine ⟨w, θ, hw, ht, ?_, by rw [← hr]; exact hov, by nlinarith⟩
  rw [← hr]
  exact le_rnd_of_rep rep_one (by linarith)

/-- `mantissa` and `find_exponent` on arguments at least 1 make the same steps. -/
theorem split_down (n : ℕ) : ∀ (q : ℚ) (z : Bool) (fuel fuel' : ℕ) (e : ℤ), n < fuel → n < fuel' → 1 ≤ q →
    overflows f q = false → q ≤ 10 * 2 ^ n → ∃ (m : ℚ) (w : Bool) (k : ℕ) (θ : ℚ),
      mantissa fuel (fin q z : FV f) = .ok (fin m w) ∧ find_exponent fuel' (fin q z : FV f) e = .ok (e + k) ∧
      1 ≤ m ∧ m ≤ 10 ∧ Near (uro f) k θ ∧ m = q / 10 ^ k * θ ∧ k ≤ n := by
  induction n with
  | zero =>
    intro q z fuel fuel' e hfu hfu' h1 ho h2
    obtain ⟨fu, rfl⟩ : ∃ fu, fuel = fu + 1 := ⟨fuel - 1, by omega⟩
    obtain ⟨fu', rfl⟩ : ∃ fu, fuel' = fu + 1 := ⟨fuel' - 1, by omega⟩
    have h2 : q ≤ 10 := by simpa using h2
    exact ⟨q, z, 0, 1, mantissa_done h1 h2, by simpa using find_exponent_done h1 h2, h1, h2, near_zero _,
      by ring, le_rfl⟩
  | succ n ih =>
    intro q z fuel fuel' e hfu hfu' h1 ho h2
    obtain ⟨fu, rfl⟩ : ∃ fu, fuel = fu + 1 := ⟨fuel - 1, by omega⟩
    obtain ⟨fu', rfl⟩ : ∃ fu, fuel' = fu + 1 := ⟨fuel' - 1, by omega⟩
    rcases le_or_gt q 10 with h4 | h4
    · exact ⟨q, z, 0, 1, mantissa_done h1 h4, by simpa using find_exponent_done h1 h4, h1, h4, near_zero _,
        by ring, by omega⟩
    · obtain ⟨w, θ, hw, ht, h5, h6, h7⟩ := div_ten (f := f) (z := z) h4 ho
      obtain ⟨m, w', k, θ', hm, hfe, a, b, c, ee, hk⟩ := ih (q / 10 * θ) w fu fu' (e + 1) (by omega) (by omega)
        h5 h6 (by rw [pow_succ] at h2; linarith)
      have hu := uro_lt_one f
      refine ⟨m, w', k + 1, θ' * θ, ?_, ?_, a, b, near_mul (uro_pos f).le (by linarith) c ht, ?_, by omega⟩
      · rw [mantissa_down h4, hw, hm]
      · rw [find_exponent_down h4, hw, hfe]; congr 1; push_cast; ring
      · rw [ee, pow_succ]; field_simp

/-- `find_exponent` on positive arguments at most 16. -/
theorem find_exponent_up (n : ℕ) : ∀ (q : ℚ) (z : Bool) (fuel : ℕ) (e : ℤ), n + 1 < fuel → minNormal f ≤ q →
    q ≤ 16 → 1 ≤ q * 2 ^ n → ∃ (v : ℚ) (k : ℤ) (l : ℕ) (θ : ℚ), find_exponent fuel (fin q z : FV f) e = .ok (e + k) ∧
      1 ≤ v ∧ v ≤ 10 ∧ Near (uro f) l θ ∧ q * θ = v * 10 ^ k ∧ l ≤ n + 1 := by
  have hbase : ∀ (q : ℚ) (z : Bool) (fuel : ℕ) (e : ℤ), 1 < fuel → 1 ≤ q → q ≤ 16 →
      ∃ (v : ℚ) (k : ℤ) (l : ℕ) (θ : ℚ), find_exponent fuel (fin q z : FV f) e = .ok (e + k) ∧
      1 ≤ v ∧ v ≤ 10 ∧ Near (uro f) l θ ∧ q * θ = v * 10 ^ k ∧ l ≤ 1 := by
    intro q z fuel e hfu h1 h2
    obtain ⟨fu, rfl⟩ : ∃ fu, fuel = fu + 1 + 1 := ⟨fuel - 2, by omega⟩
    rcases le_or_gt q 10 with h4 | h4
    · exact ⟨q, 0, 0, 1, by simpa using find_exponent_done h1 h4, h1, h4, near_zero _, by ring, by omega⟩
    · obtain ⟨w, θ, hw, ht, h5, h6, h7⟩ := div_ten (f := f) (z := z) h4
        (overflows_small (by rw [abs_of_pos (by linarith)]; linarith))
      refine ⟨q / 10 * θ, 1, 1, θ, ?_, h5, by linarith, ht, by ring, le_rfl⟩
      rw [find_exponent_down h4, hw, find_exponent_done h5 (by linarith)]
  induction n with
  | zero =>
    intro q z fuel e hfu h1 h2 h3
    obtain ⟨v, k, l, θ, a, b, c, g, h, hl⟩ := hbase q z fuel e (by omega) (by simpa using h3) h2
    exact ⟨v, k, l, θ, a, b, c, g, h, by omega⟩
  | succ n ih =>
    intro q z fuel e hfu h1 h2 h3
    obtain ⟨fu, rfl⟩ : ∃ fu, fuel = fu + 1 := ⟨fuel - 1, by omega⟩
    rcases le_or_gt 1 q with h4 | h4
    · obtain ⟨v, k, l, θ, a, b, c, g, h, hl⟩ := hbase q z (fu + 1) e (by omega) h4 h2
      exact ⟨v, k, l, θ, a, b, c, g, h, by omega⟩
    · have hq0 : 0 < q := lt_of_lt_of_le (minNormal_pos f) h1
      have hq := is_fin (f := f) q z
      obtain ⟨c3, i3, l3, u3⟩ := is_1em3 (f := f)
      obtain ⟨c1, i1, l1, u1⟩ := is_1em1 (f := f)
      have hu := uro_le_rat f
      -- one step with multiplier `10^j`
      have step : ∀ (j : ℕ) (c : FV f), Is c (10 ^ j) → 1 ≤ j → j ≤ 4 → q * 10 ^ j ≤ 11 →
          find_exponent (fu + 1) (fin q z : FV f) e = find_exponent fu (fin q z * c : FV f) (e - j) →
          ∃ (v : ℚ) (k : ℤ) (l : ℕ) (θ : ℚ), find_exponent (fu + 1) (fin q z : FV f) e = .ok (e + k) ∧
            1 ≤ v ∧ v ≤ 10 ∧ Near (uro f) l θ ∧ q * θ = v * 10 ^ k ∧ l ≤ n + 1 + 1 := by
        intro j c hc hj1 hj4 hqj heq
        have h10 : (10:ℚ) ≤ 10 ^ j := by
          calc (10:ℚ) = 10 ^ 1 := by norm_num
            _ ≤ 10 ^ j := pow_le_pow_right₀ (by norm_num) hj1
        have hpos : 0 < q * 10 ^ j := by positivity
        have hge : q ≤ q * 10 ^ j := by nlinarith
        obtain ⟨w, hw⟩ := hq.mul hc (nov_small (by rw [abs_of_pos hpos]; linarith))
        obtain ⟨θ, ht, hr⟩ := rnd_near (f := f) (q := q * 10 ^ j) (by linarith)
        have ht1 := ht.1
        have ht2 := ht.2
        rw [pow_one] at ht1 ht2
        obtain ⟨v, k, l, θ', hm, a, b, c', ee, hl⟩ := ih (rnd f (q * 10 ^ j)) w fu (e - j) (by omega)
          (le_rnd_of_rep (rep_mn f) (by linarith)) (by rw [hr]; nlinarith) (by
            rw [hr]
            have : (0:ℚ) < 2 ^ n := by positivity
            rw [pow_succ] at h3
            have h5 : 2 ≤ 10 ^ j * θ := by nlinarith
            calc (1:ℚ) ≤ q * (2 ^ n * 2) := h3
              _ = q * 2 ^ n * 2 := by ring
              _ ≤ q * 2 ^ n * (10 ^ j * θ) := by gcongr
              _ = _ := by ring)
        refine ⟨v, k - j, l + 1, θ' * θ, ?_, a, b, near_mul (uro_pos f).le (by linarith) c' ht, ?_, by omega⟩
        · rw [heq, hw, hm]; congr 1; ring
        · rw [hr] at ee
          rw [zpow_sub₀ (by norm_num), zpow_natCast]
          field_simp
          linarith
      have hd : find_exponent (fu + 1) (fin q z : FV f) e =
          if (fin q z : FV f) < d 1e-3 then find_exponent fu (fin q z * d 1e4 : FV f) (e - 4)
          else if (fin q z : FV f) < d 1e-1 then find_exponent fu (fin q z * d 1e2 : FV f) (e - 2)
          else find_exponent fu (fin q z * i 10 : FV f) (e - 1) := by
        conv_lhs => unfold find_exponent
        rw [if_pos (show (fin q z : FV f) < i 1 by rw [i_one, fin_lt]; exact h4)]
      by_cases hc3 : q < c3
      · rw [if_pos ((hq.lt_iff i3).2 hc3)] at hd
        exact step 4 _ (by have := is_1e4 (f := f); norm_num at this ⊢; exact this) (by omega) (by omega)
          (by norm_num; linarith) hd
      · rw [if_neg (fun h => hc3 ((hq.lt_iff i3).1 h))] at hd
        by_cases hc1 : q < c1
        · rw [if_pos ((hq.lt_iff i1).2 hc1)] at hd
          exact step 2 _ (by have := is_1e2 (f := f); norm_num at this ⊢; exact this) (by omega) (by omega)
            (by norm_num; linarith) hd
        · rw [if_neg (fun h => hc1 ((hq.lt_iff i1).1 h))] at hd
          exact step 1 _ (by simpa using is_ten (f := f)) (by omega) (by omega) (by norm_num; linarith) hd

end Gcem
