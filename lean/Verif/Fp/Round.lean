import Verif.Fp.Format
import Mathlib.Tactic.Linarith
import Mathlib.Tactic.Positivity
import Mathlib.Tactic.Ring
import Mathlib.Tactic.FieldSimp
import Mathlib.Tactic.NormNum
import Mathlib.Algebra.Order.Floor.Ring

/-!
# Theory of rounding: monotonicity, representability, error bounds
-/

namespace Gcem

theorem pow2_eq (e : ℤ) : pow2 e = (2 : ℚ) ^ e := by
  unfold pow2
  split
  · next h =>
    obtain ⟨n, rfl⟩ := Int.eq_ofNat_of_zero_le h
    simp
  · next h =>
    obtain ⟨n, hn⟩ := Int.eq_ofNat_of_zero_le (show 0 ≤ -e by omega)
    have : e = -(n : ℤ) := by omega
    subst this
    simp

theorem pow2_pos (e : ℤ) : 0 < pow2 e := by rw [pow2_eq]; positivity

theorem pow2_add (a b : ℤ) : pow2 (a + b) = pow2 a * pow2 b := by
  simp only [pow2_eq]; exact zpow_add₀ (by norm_num) a b

theorem pow2_le {a b : ℤ} (h : a ≤ b) : pow2 a ≤ pow2 b := by
  simp only [pow2_eq]; exact zpow_le_zpow_right₀ (by norm_num) h

theorem pow2_lt {a b : ℤ} (h : a < b) : pow2 a < pow2 b := by
  simp only [pow2_eq]; exact zpow_lt_zpow_right₀ (by norm_num) h

theorem pow2_lt_iff {a b : ℤ} : pow2 a < pow2 b ↔ a < b := by
  simp only [pow2_eq]; exact zpow_lt_zpow_iff_right₀ (by norm_num)

theorem pow2_le_iff {a b : ℤ} : pow2 a ≤ pow2 b ↔ a ≤ b := by
  simp only [pow2_eq]; exact zpow_le_zpow_iff_right₀ (by norm_num)

theorem pow2_zero : pow2 0 = 1 := by simp [pow2_eq]

theorem pow2_nat (n : ℕ) : pow2 n = 2 ^ n := by simp [pow2_eq]

theorem pow2_sub (a b : ℤ) : pow2 (a - b) = pow2 a / pow2 b := by
  simp only [pow2_eq]; exact zpow_sub₀ (by norm_num) a b

theorem pow2_succ (a : ℤ) : pow2 (a + 1) = 2 * pow2 a := by
  rw [pow2_add]; simp [pow2_eq]; ring

/-- `pow2 (a)` is an integer multiple of `pow2 b` for `b ≤ a`. -/
theorem pow2_mult {a b : ℤ} (h : b ≤ a) : ∃ k : ℤ, 0 < k ∧ pow2 a = k * pow2 b := by
  obtain ⟨n, hn⟩ := Int.eq_ofNat_of_zero_le (show 0 ≤ a - b by omega)
  refine ⟨2 ^ n, by positivity, ?_⟩
  have : a = n + b := by omega
  rw [this, pow2_add, pow2_nat]; push_cast; ring

/-! ## ilog2 -/

theorem ite_abs (q : ℚ) : (if q < 0 then -q else q) = |q| := by
  split
  · next h => rw [abs_of_neg h]
  · next h => rw [abs_of_nonneg (not_lt.mp h)]

theorem ilog2_spec {q : ℚ} (hq : q ≠ 0) : pow2 (ilog2 q) ≤ |q| ∧ |q| < pow2 (ilog2 q + 1) := by
  have hn : q.num.natAbs ≠ 0 := by simpa using hq
  have hd : q.den ≠ 0 := q.den_nz
  set n := q.num.natAbs with hndef
  set dd := q.den with hddef
  have hqe : |q| = (n : ℚ) / dd := by
    have h1 : q = (q.num : ℚ) / q.den := (Rat.num_div_den q).symm
    have h2 : |(q.num : ℚ)| = (n : ℚ) := by
      rw [hndef, Nat.cast_natAbs]; push_cast; rfl
    calc |q| = |(q.num : ℚ) / q.den| := by rw [← h1]
      _ = (n : ℚ) / dd := by rw [abs_div, h2, Nat.abs_cast]
  have hdp : (0 : ℚ) < dd := by positivity
  have n1 : (2 : ℚ) ^ n.log2 ≤ n := by exact_mod_cast Nat.log2_self_le hn
  have n2 : (n : ℚ) < 2 ^ (n.log2 + 1) := by exact_mod_cast Nat.lt_log2_self
  have d1 : (2 : ℚ) ^ dd.log2 ≤ dd := by exact_mod_cast Nat.log2_self_le hd
  have d2 : (dd : ℚ) < 2 ^ (dd.log2 + 1) := by exact_mod_cast Nat.lt_log2_self
  have hlo : pow2 ((n.log2 : ℤ) - dd.log2 - 1) ≤ |q| := by
    have : pow2 ((n.log2 : ℤ) - dd.log2 - 1) = 2 ^ n.log2 / 2 ^ (dd.log2 + 1) := by
      rw [show (n.log2 : ℤ) - dd.log2 - 1 = (n.log2 : ℤ) - ((dd.log2 + 1 : ℕ) : ℤ) by push_cast; ring]
      rw [pow2_sub, pow2_nat, pow2_nat]
    rw [this, hqe]
    exact div_le_div₀ (by positivity) n1 hdp d2.le
  have hhi : |q| < pow2 ((n.log2 : ℤ) - dd.log2 + 1) := by
    have : pow2 ((n.log2 : ℤ) - dd.log2 + 1) = 2 ^ (n.log2 + 1) / 2 ^ (dd.log2) := by
      rw [show (n.log2 : ℤ) - dd.log2 + 1 = ((n.log2 + 1 : ℕ) : ℤ) - ((dd.log2 : ℕ) : ℤ) by push_cast; ring]
      rw [pow2_sub, pow2_nat, pow2_nat]
    rw [this, hqe]
    exact div_lt_div₀ n2 d1 (by positivity) (by positivity)
  unfold ilog2
  simp only [ite_abs]
  split
  · next h =>
    refine ⟨hlo, ?_⟩
    simpa using h
  · next h => exact ⟨not_lt.mp h, hhi⟩

theorem ilog2_unique {q : ℚ} {k : ℤ} (h1 : pow2 k ≤ |q|) (h2 : |q| < pow2 (k + 1)) :
    ilog2 q = k := by
  have hq : q ≠ 0 := by
    rintro rfl
    have := pow2_pos k
    simp at h1; linarith
  obtain ⟨a, b⟩ := ilog2_spec hq
  have c1 : ilog2 q < k + 1 := pow2_lt_iff.mp (lt_of_le_of_lt a h2)
  have c2 : k < ilog2 q + 1 := pow2_lt_iff.mp (lt_of_le_of_lt h1 b)
  omega

theorem ilog2_neg (q : ℚ) : ilog2 (-q) = ilog2 q := by
  by_cases hq : q = 0
  · simp [hq]
  · obtain ⟨a, b⟩ := ilog2_spec hq
    exact ilog2_unique (by rwa [abs_neg]) (by rwa [abs_neg])

theorem ilog2_mono {a b : ℚ} (ha : a ≠ 0) (h : |a| ≤ |b|) : ilog2 a ≤ ilog2 b := by
  have hb : b ≠ 0 := by
    rintro rfl
    simp at h; exact ha h
  obtain ⟨a1, _⟩ := ilog2_spec ha
  obtain ⟨_, b2⟩ := ilog2_spec hb
  have := pow2_lt_iff.mp (lt_of_le_of_lt (a1.trans h) b2)
  omega

theorem ilog2_pow2 (k : ℤ) : ilog2 (pow2 k) = k := by
  apply ilog2_unique
  · rw [abs_of_pos (pow2_pos k)]
  · rw [abs_of_pos (pow2_pos k)]; exact pow2_lt (by omega)

theorem le_ilog2_iff {q : ℚ} (hq : q ≠ 0) {k : ℤ} : k ≤ ilog2 q ↔ pow2 k ≤ |q| := by
  obtain ⟨a, b⟩ := ilog2_spec hq
  constructor
  · intro h; exact (pow2_le h).trans a
  · intro h
    have := pow2_lt_iff.mp (lt_of_le_of_lt h b)
    omega

theorem ilog2_lt_iff {q : ℚ} (hq : q ≠ 0) {k : ℤ} : ilog2 q < k ↔ |q| < pow2 k := by
  rw [← not_le, le_ilog2_iff hq, not_le]

/-! ## Rounding to integers -/

theorem rhe_int (n : ℤ) : rhe n = n := by
  unfold rhe; simp

theorem rhe_abs_sub (q : ℚ) : |(rhe q : ℚ) - q| ≤ 1 / 2 := by
  have h1 : (⌊q⌋ : ℚ) ≤ q := Int.floor_le q
  have h2 : q < ⌊q⌋ + 1 := Int.lt_floor_add_one q
  unfold rhe
  simp only
  rw [abs_le]
  split_ifs <;> push_cast <;> constructor <;> linarith

theorem rhe_floor_or (q : ℚ) : rhe q = ⌊q⌋ ∨ rhe q = ⌊q⌋ + 1 := by
  unfold rhe
  simp only
  split_ifs <;> simp

theorem rhe_mono {a b : ℚ} (h : a ≤ b) : rhe a ≤ rhe b := by
  have hf : ⌊a⌋ ≤ ⌊b⌋ := Int.floor_mono h
  have a1 : (⌊a⌋ : ℚ) ≤ a := Int.floor_le a
  have b2 : b < ⌊b⌋ + 1 := Int.lt_floor_add_one b
  rcases hf.lt_or_eq with hlt | heq
  · rcases rhe_floor_or a with h1 | h1 <;> rcases rhe_floor_or b with h2 | h2 <;> omega
  · unfold rhe
    simp only [heq]
    split_ifs <;> first | omega | (exfalso; linarith)

theorem rhe_le_of_le_int {a : ℚ} {n : ℤ} (h : a ≤ n) : rhe a ≤ n := by
  have := rhe_mono h; rwa [rhe_int] at this

theorem int_le_rhe {a : ℚ} {n : ℤ} (h : (n : ℚ) ≤ a) : n ≤ rhe a := by
  have := rhe_mono h; rwa [rhe_int] at this

theorem rhe_neg (q : ℚ) : rhe (-q) = -rhe q := by
  have h1 : (⌊q⌋ : ℚ) ≤ q := Int.floor_le q
  have h2 : q < ⌊q⌋ + 1 := Int.lt_floor_add_one q
  by_cases hi : (⌊q⌋ : ℚ) = q
  · rw [← hi]
    rw [show (-(⌊q⌋ : ℚ)) = ((-⌊q⌋ : ℤ) : ℚ) by push_cast; ring]
    rw [rhe_int, rhe_int]
  · have h1' : (⌊q⌋ : ℚ) < q := lt_of_le_of_ne h1 hi
    have hfl : ⌊-q⌋ = -⌊q⌋ - 1 := by
      rw [Int.floor_eq_iff]; push_cast; constructor <;> linarith
    unfold rhe
    simp only [hfl]
    push_cast
    split_ifs <;> first | omega | (exfalso; linarith)

/-! ## The rounding function -/

variable {f : Fmt}

theorem rnd_zero (f : Fmt) : rnd f 0 = 0 := by unfold rnd; simp

theorem rnd_exact (h : f.exact = true) (q : ℚ) : rnd f q = q := by unfold rnd; simp [h]

theorem rnd_def (h : f.exact = false) {q : ℚ} (hq : q ≠ 0) :
    rnd f q = rhe (q / pow2 (fexp f q)) * pow2 (fexp f q) := by
  unfold rnd; simp [h, hq]

theorem fexp_neg (f : Fmt) (q : ℚ) : fexp f (-q) = fexp f q := by
  unfold fexp; rw [ilog2_neg]

theorem rnd_neg (f : Fmt) (q : ℚ) : rnd f (-q) = -rnd f q := by
  cases h : f.exact
  · by_cases hq : q = 0
    · simp [hq, rnd_zero]
    · rw [rnd_def h (neg_ne_zero.mpr hq), rnd_def h hq, fexp_neg, neg_div, rhe_neg]
      push_cast; ring
  · simp [rnd_exact h]

theorem prec_pos (f : Fmt) : 2 ≤ f.prec := by
  rcases f with ⟨t, _⟩; cases t <;> simp [Fmt.prec, FTy.prec]

theorem fexp_mono {a b : ℚ} (ha : a ≠ 0) (h : |a| ≤ |b|) : fexp f a ≤ fexp f b := by
  unfold fexp
  have := ilog2_mono ha h
  omega

/-- Unit in the last place never exceeds the leading bit, once above the subnormal threshold. -/
theorem rnd_le_of_le_mult {q : ℚ} (h : f.exact = false) (hq : q ≠ 0) {n : ℤ}
    (hle : q ≤ n * pow2 (fexp f q)) : rnd f q ≤ n * pow2 (fexp f q) := by
  rw [rnd_def h hq]
  have hp := pow2_pos (fexp f q)
  have : q / pow2 (fexp f q) ≤ n := by rw [div_le_iff₀ hp]; exact hle
  have := rhe_le_of_le_int this
  have h3 : ((rhe (q / pow2 (fexp f q)) : ℤ) : ℚ) ≤ n := by exact_mod_cast this
  exact mul_le_mul_of_nonneg_right h3 hp.le

theorem le_rnd_of_mult_le {q : ℚ} (h : f.exact = false) (hq : q ≠ 0) {n : ℤ}
    (hle : n * pow2 (fexp f q) ≤ q) : n * pow2 (fexp f q) ≤ rnd f q := by
  rw [rnd_def h hq]
  have hp := pow2_pos (fexp f q)
  have : (n : ℚ) ≤ q / pow2 (fexp f q) := by rw [le_div_iff₀ hp]; exact hle
  have := int_le_rhe this
  have h3 : (n : ℚ) ≤ ((rhe (q / pow2 (fexp f q)) : ℤ) : ℚ) := by exact_mod_cast this
  exact mul_le_mul_of_nonneg_right h3 hp.le

theorem rnd_nonneg {q : ℚ} (hq : 0 ≤ q) : 0 ≤ rnd f q := by
  cases h : f.exact
  · rcases hq.eq_or_lt with h0 | h0
    · rw [← h0, rnd_zero]
    · have := le_rnd_of_mult_le (f := f) h h0.ne' (n := 0) (by simpa using hq)
      simpa using this
  · rwa [rnd_exact h]

theorem rnd_nonpos {q : ℚ} (hq : q ≤ 0) : rnd f q ≤ 0 := by
  have := rnd_nonneg (f := f) (q := -q) (by linarith)
  rw [rnd_neg] at this; linarith

private theorem rnd_mono_pos {a b : ℚ} (ha : 0 < a) (hab : a ≤ b) : rnd f a ≤ rnd f b := by
  cases h : f.exact
  swap
  · simpa [rnd_exact h] using hab
  have hb : 0 < b := lt_of_lt_of_le ha hab
  have habs : |a| ≤ |b| := by rw [abs_of_pos ha, abs_of_pos hb]; exact hab
  rcases (fexp_mono (f := f) ha.ne' habs).eq_or_lt with he | he
  · rw [rnd_def h ha.ne', rnd_def h hb.ne', he]
    have hp := pow2_pos (fexp f b)
    have : a / pow2 (fexp f b) ≤ b / pow2 (fexp f b) := by gcongr
    have h3 : ((rhe (a / pow2 (fexp f b)) : ℤ) : ℚ) ≤ (rhe (b / pow2 (fexp f b)) : ℤ) := by
      exact_mod_cast rhe_mono this
    exact mul_le_mul_of_nonneg_right h3 hp.le
  · -- separated by `pow2 (ilog2 b)`
    have hil : ilog2 a < ilog2 b := by
      unfold fexp at he; omega
    have hfb : fexp f b ≤ ilog2 b := by
      have := prec_pos f
      unfold fexp at he ⊢; omega
    have ha2 : a < pow2 (ilog2 b) := by
      have := (ilog2_lt_iff ha.ne').mp hil
      rwa [abs_of_pos ha] at this
    have hb2 : pow2 (ilog2 b) ≤ b := by
      have := (ilog2_spec hb.ne').1
      rwa [abs_of_pos hb] at this
    obtain ⟨k1, _, hk1⟩ := pow2_mult (show fexp f a ≤ ilog2 b by omega)
    obtain ⟨k2, _, hk2⟩ := pow2_mult hfb
    have l1 := rnd_le_of_le_mult (f := f) h ha.ne' (n := k1) (by rw [← hk1]; exact ha2.le)
    have l2 := le_rnd_of_mult_le (f := f) h hb.ne' (n := k2) (by rw [← hk2]; exact hb2)
    rw [← hk1] at l1; rw [← hk2] at l2
    exact l1.trans l2

theorem rnd_mono {a b : ℚ} (hab : a ≤ b) : rnd f a ≤ rnd f b := by
  rcases lt_trichotomy a 0 with ha | ha | ha
  · rcases lt_or_ge b 0 with hb | hb
    · have := rnd_mono_pos (f := f) (a := -b) (b := -a) (by linarith) (by linarith)
      rw [rnd_neg, rnd_neg] at this; linarith
    · exact (rnd_nonpos ha.le).trans (rnd_nonneg hb)
  · subst ha; rw [rnd_zero]; exact rnd_nonneg hab
  · exact rnd_mono_pos ha hab

/-! ## Representable numbers -/

/-- `q` is exactly representable (ignoring overflow). -/
def Rep (f : Fmt) (q : ℚ) : Prop := rnd f q = q

theorem Rep.neg {q : ℚ} (h : Rep f q) : Rep f (-q) := by
  unfold Rep at *; rw [rnd_neg, h]

theorem Rep.zero : Rep f 0 := rnd_zero f

theorem rep_of_exact (h : f.exact = true) (q : ℚ) : Rep f q := rnd_exact h q

/-- An integer multiple of a power of two with at most `prec` bits is representable. -/
theorem rep_of_scaled {m e : ℤ} (hm : |m| ≤ 2 ^ f.prec) (he : f.emin ≤ e) :
    Rep f (m * pow2 e) := by
  cases hex : f.exact
  swap
  · exact rep_of_exact hex _
  by_cases hm0 : m = 0
  · subst hm0; simpa using (Rep.zero (f := f))
  have hpp := pow2_pos e
  have hq : (m : ℚ) * pow2 e ≠ 0 := by
    apply mul_ne_zero; exact_mod_cast hm0; exact hpp.ne'
  -- it suffices that the value is an integer multiple of the ulp
  suffices hk : ∃ k : ℤ, (m : ℚ) * pow2 e = k * pow2 (fexp f (m * pow2 e)) by
    obtain ⟨k, hk⟩ := hk
    unfold Rep
    rw [rnd_def hex hq]
    have hp := pow2_pos (fexp f (m * pow2 e))
    have : (m : ℚ) * pow2 e / pow2 (fexp f (m * pow2 e)) = k := by
      rw [div_eq_iff hp.ne']; exact hk
    rw [this, rhe_int]; exact hk.symm
  by_cases hfe : fexp f (m * pow2 e) ≤ e
  · obtain ⟨k, _, hk⟩ := pow2_mult hfe
    refine ⟨m * k, ?_⟩
    conv_lhs => rw [hk]
    push_cast; ring
  · -- then |m| = 2^prec
    have habs : |(m : ℚ) * pow2 e| = (|m| : ℤ) * pow2 e := by
      rw [abs_mul, abs_of_pos hpp]; push_cast; ring
    have hmq : ((|m| : ℤ) : ℚ) ≤ pow2 f.prec := by rw [pow2_nat]; exact_mod_cast hm
    have hil : ilog2 (m * pow2 e) ≤ e + f.prec := by
      by_contra hcon
      have : e + f.prec + 1 ≤ ilog2 (m * pow2 e) := by omega
      have h1 := (le_ilog2_iff hq).mp this
      rw [habs] at h1
      have h2 : ((|m| : ℤ) : ℚ) * pow2 e ≤ pow2 (e + f.prec) := by
        rw [pow2_add, mul_comm (pow2 e)]
        exact mul_le_mul_of_nonneg_right hmq hpp.le
      have h3 := pow2_lt (show e + f.prec < e + f.prec + 1 by omega)
      linarith
    have hfe2 : fexp f (m * pow2 e) = e + 1 ∧ ilog2 (m * pow2 e) = e + f.prec := by
      unfold fexp at hfe ⊢
      constructor <;> omega
    have h1 := (ilog2_spec hq).1
    rw [hfe2.2, habs, pow2_add, mul_comm (pow2 e)] at h1
    have h1' : pow2 f.prec ≤ ((|m| : ℤ) : ℚ) := le_of_mul_le_mul_right h1 hpp
    have heq : ((|m| : ℤ) : ℚ) = pow2 f.prec := le_antisymm hmq h1'
    have heqz : |m| = 2 ^ f.prec := by
      rw [pow2_nat] at heq; exact_mod_cast heq
    have hdvd : (2 : ℤ) ∣ m := by
      rw [← dvd_abs, heqz]
      exact dvd_pow_self 2 (by have := prec_pos f; omega)
    obtain ⟨k, hk⟩ := hdvd
    refine ⟨k, ?_⟩
    rw [hfe2.1, pow2_succ, hk]; push_cast; ring

theorem rep_pow2 {e : ℤ} (he : f.emin ≤ e) : Rep f (pow2 e) := by
  have := rep_of_scaled (f := f) (m := 1) (e := e) (by
    have : (1 : ℤ) ≤ 2 ^ f.prec := one_le_pow₀ (by norm_num)
    simpa using this) he
  simpa using this

theorem emin_neg (f : Fmt) : f.emin ≤ 0 := by
  rcases f with ⟨t, _⟩; cases t <;> simp [Fmt.emin, FTy.emin]

theorem rep_int {n : ℤ} (h : |n| ≤ 2 ^ f.prec) : Rep f n := by
  have := rep_of_scaled (f := f) (m := n) (e := 0) h (emin_neg f)
  simpa [pow2_zero] using this

/-- Every representable number is an integer multiple of its ulp, with few bits. -/
theorem rep_scaled {q : ℚ} (hex : f.exact = false) (hq : q ≠ 0) (h : Rep f q) :
    ∃ m : ℤ, q = m * pow2 (fexp f q) ∧ |m| < 2 ^ f.prec := by
  unfold Rep at h
  rw [rnd_def hex hq] at h
  refine ⟨_, h.symm, ?_⟩
  set m := rhe (q / pow2 (fexp f q))
  set e := fexp f q with he
  have hpp := pow2_pos e
  have h2 := (ilog2_spec hq).2
  have h3 : ilog2 q + 1 ≤ e + f.prec := by
    rw [he]; unfold fexp; omega
  have h4 : |q| < pow2 (e + f.prec) := lt_of_lt_of_le h2 (pow2_le h3)
  rw [← h, abs_mul, abs_of_pos hpp, pow2_add, mul_comm (pow2 e)] at h4
  have h5 := lt_of_mul_lt_mul_right h4 hpp.le
  rw [pow2_nat] at h5
  exact_mod_cast h5

theorem fexp_ge (f : Fmt) (q : ℚ) : f.emin ≤ fexp f q := by unfold fexp; omega

theorem rep_rnd (f : Fmt) (q : ℚ) : Rep f (rnd f q) := by
  cases hex : f.exact
  swap
  · exact rep_of_exact hex _
  by_cases hq : q = 0
  · subst hq; rw [rnd_zero]; exact Rep.zero
  rw [rnd_def hex hq]
  apply rep_of_scaled
  · have hpp := pow2_pos (fexp f q)
    have h2 := (ilog2_spec hq).2
    have h3 : ilog2 q + 1 ≤ fexp f q + f.prec := by unfold fexp; omega
    have h4 : |q| ≤ pow2 (fexp f q + f.prec) := (h2.trans_le (pow2_le h3)).le
    rw [pow2_add, pow2_nat, abs_le] at h4
    have h5 : q / pow2 (fexp f q) ≤ ((2 ^ f.prec : ℤ) : ℚ) := by
      rw [div_le_iff₀ hpp]; push_cast; linarith
    have h6 : ((-2 ^ f.prec : ℤ) : ℚ) ≤ q / pow2 (fexp f q) := by
      rw [le_div_iff₀ hpp]; push_cast; linarith
    rw [abs_le]
    exact ⟨int_le_rhe h6, rhe_le_of_le_int h5⟩
  · exact fexp_ge f q

theorem rnd_rnd (f : Fmt) (q : ℚ) : rnd f (rnd f q) = rnd f q := rep_rnd f q

theorem rnd_le_of_rep {q r : ℚ} (hr : Rep f r) (h : q ≤ r) : rnd f q ≤ r := by
  have := rnd_mono (f := f) h; rwa [hr] at this

theorem le_rnd_of_rep {q r : ℚ} (hr : Rep f r) (h : r ≤ q) : r ≤ rnd f q := by
  have := rnd_mono (f := f) h; rwa [hr] at this

theorem abs_rnd (f : Fmt) (q : ℚ) : |rnd f q| = rnd f |q| := by
  rcases le_total 0 q with h | h
  · rw [abs_of_nonneg h, abs_of_nonneg (rnd_nonneg h)]
  · rw [abs_of_nonpos h, abs_of_nonpos (rnd_nonpos h), rnd_neg]

theorem abs_rnd_le_of_rep {q r : ℚ} (hr : Rep f r) (h : |q| ≤ r) : |rnd f q| ≤ r := by
  rw [abs_rnd]; exact rnd_le_of_rep hr h

theorem rnd_ne_zero_of_rep {q r : ℚ} (hr : Rep f r) (hr0 : 0 < r) (h : r ≤ |q|) : rnd f q ≠ 0 := by
  intro h0
  have := abs_rnd f q
  rw [h0, abs_zero] at this
  have h2 := le_rnd_of_rep hr h
  linarith

/-! ## Error bounds -/

/-- Absolute error: half a unit in the last place. -/
theorem rnd_err_ulp (q : ℚ) (hq : q ≠ 0) : |rnd f q - q| ≤ pow2 (fexp f q) / 2 := by
  cases hex : f.exact
  swap
  · rw [rnd_exact hex]; simp; have := pow2_pos (fexp f q); positivity
  rw [rnd_def hex hq]
  have hp := pow2_pos (fexp f q)
  have h := rhe_abs_sub (q / pow2 (fexp f q))
  have : (rhe (q / pow2 (fexp f q)) : ℚ) * pow2 (fexp f q) - q
      = ((rhe (q / pow2 (fexp f q)) : ℚ) - q / pow2 (fexp f q)) * pow2 (fexp f q) := by
    field_simp
  rw [this, abs_mul, abs_of_pos hp]
  calc _ ≤ 1 / 2 * pow2 (fexp f q) := mul_le_mul_of_nonneg_right h hp.le
    _ = _ := by ring

/-- unit roundoff `2^(-prec)` -/
def uro (f : Fmt) : ℚ := pow2 (-f.prec)

theorem uro_pos (f : Fmt) : 0 < uro f := pow2_pos _

/-- Relative error in the normal range. -/
theorem rnd_err_rel {q : ℚ} (h : FV.minNormal f ≤ |q|) : |rnd f q - q| ≤ uro f * |q| := by
  have hmp : 0 < FV.minNormal f := pow2_pos _
  have hq : q ≠ 0 := by rintro rfl; simp at h; linarith
  refine (rnd_err_ulp q hq).trans ?_
  have h1 : f.emin + f.prec - 1 ≤ ilog2 q := (le_ilog2_iff hq).mpr h
  have h2 : fexp f q = ilog2 q - (f.prec - 1) := by unfold fexp; omega
  rw [h2, show ilog2 q - ((f.prec : ℤ) - 1) = (-(f.prec : ℤ) + ilog2 q) + 1 by ring, pow2_succ]
  unfold uro
  rw [pow2_add]
  have h3 := (ilog2_spec hq).1
  have h4 := pow2_pos (-(f.prec : ℤ))
  have : pow2 (-(f.prec : ℤ)) * pow2 (ilog2 q) ≤ pow2 (-(f.prec : ℤ)) * |q| :=
    mul_le_mul_of_nonneg_left h3 h4.le
  linarith

/-- Error with a subnormal absolute term, for every `q`. -/
theorem rnd_err_all (q : ℚ) : |rnd f q - q| ≤ uro f * |q| + pow2 f.emin / 2 := by
  have hu := uro_pos f
  have hm := pow2_pos f.emin
  by_cases hq : q = 0
  · subst hq; simp [rnd_zero]; linarith
  by_cases h : FV.minNormal f ≤ |q|
  · have := rnd_err_rel h; linarith
  · refine (rnd_err_ulp q hq).trans ?_
    have h1 : ilog2 q < f.emin + f.prec - 1 := (ilog2_lt_iff hq).mpr (not_le.mp h)
    have h2 : fexp f q = f.emin := by unfold fexp; omega
    rw [h2]
    have := abs_nonneg q
    nlinarith

end Gcem
