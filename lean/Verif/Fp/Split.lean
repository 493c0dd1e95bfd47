import Verif.Fp.RoundFns

/-!
# find_whole / find_fraction

The exact behaviour of the split used by `exp` and `tgamma`.
-/

namespace Gcem
open FV
variable {f : Fmt}

/-- Near an integer, subtraction of the integer is exact (for `|q| ≥ 1`). -/
theorem rep_sub_int {q : ℚ} {n : ℤ} (hf : f.exact = false) (hr : Rep f q) (h1 : 1 ≤ |q|)
    (h2 : |q - n| ≤ 2) : Rep f (q - n) := by
  have hq : q ≠ 0 := by rintro rfl; norm_num at h1
  obtain ⟨m, hm, -⟩ := rep_scaled hf hq hr
  have hl : 0 ≤ ilog2 q := by rw [le_ilog2_iff hq, pow2_zero]; exact h1
  have hp := prec_pos f
  have hemin : f.emin ≤ -(f.prec - 1 : ℤ) := by rcases f with ⟨⟨⟩, ⟨⟩⟩ <;> decide
  have he : -(f.prec - 1 : ℤ) ≤ fexp f q := by unfold fexp; omega
  rcases le_total 0 (fexp f q) with h0 | h0
  · obtain ⟨k, -, hk⟩ := pow2_mult h0
    rw [pow2_zero, mul_one] at hk
    have : q - n = ((m * k - n : ℤ) : ℚ) := by rw [hm, hk]; push_cast; ring
    rw [this] at h2 ⊢
    apply rep_int
    have h3 : |m * k - n| ≤ 2 := by exact_mod_cast h2
    have := two_pow_prec f
    omega
  · obtain ⟨k, -, hk⟩ := pow2_mult h0
    rw [pow2_zero] at hk
    have hpos := pow2_pos (fexp f q)
    have : q - n = ((m - n * k : ℤ) : ℚ) * pow2 (fexp f q) := by
      push_cast
      rw [sub_mul, ← hm, mul_assoc, ← hk, mul_one]
    rw [this] at h2 ⊢
    apply rep_of_scaled _ (fexp_ge f q)
    rw [abs_mul, abs_of_pos hpos] at h2
    have h3 : pow2 (-(f.prec - 1 : ℤ)) ≤ pow2 (fexp f q) := pow2_le he
    have h4 : pow2 (-(f.prec - 1 : ℤ)) * 2 ^ f.prec = 2 := by
      rw [← pow2_nat, ← pow2_add]
      rw [show (-(f.prec - 1 : ℤ) + (f.prec : ℕ)) = 1 by ring]
      simp [pow2_eq]
    have h5 : |((m - n * k : ℤ) : ℚ)| ≤ 2 ^ f.prec := by
      by_contra hc
      push Not at hc
      have : (2:ℚ) < |((m - n * k : ℤ) : ℚ)| * pow2 (fexp f q) := by
        calc (2:ℚ) = 2 ^ f.prec * pow2 (-(f.prec - 1 : ℤ)) := by rw [mul_comm, h4]
          _ ≤ 2 ^ f.prec * pow2 (fexp f q) := by gcongr
          _ < _ := by gcongr
      linarith
    exact_mod_cast h5

/-- The integer part chosen by `find_whole`: the floor, moved by one *away from zero* when the
fractional part is at least one half. -/
def wholeOf (q : ℚ) : ℤ :=
  if 1/2 ≤ q - ⌊q⌋ then (if 0 < q then ⌊q⌋ + 1 else if q < 0 then ⌊q⌋ - 1 else ⌊q⌋) else ⌊q⌋

theorem toI64_int {z : Bool} (n : ℤ) : toI64 (fin (n : ℚ) z : FV f)
    = (if -2 ^ 63 ≤ n ∧ n ≤ 2 ^ 63 - 1 then .ok n else .error .castRange) := by
  change (if _ then _ else _ : Res ℤ) = _
  rw [ratTrunc_int]

theorem overflows_small {q : ℚ} (h : |q| ≤ 16777216) : overflows f q = false := by
  have : (16777216 : ℚ) = |((16777216 : ℤ) : ℚ)| := by norm_num
  rw [this] at h
  exact overflows_of_abs_le h (overflows_int (by simpa using two_pow_prec f))

theorem find_split {q : ℚ} {z : Bool} (hf : f.exact = false) (hx : Valid (fin q z : FV f))
    (h1 : 1 ≤ |q|) :
    (∃ w, find_fraction (fin q z : FV f) = .ok (fin (q - wholeOf q) w)) ∧
    find_whole (fin q z : FV f) = (if -2 ^ 63 ≤ wholeOf q ∧ wholeOf q ≤ 2 ^ 63 - 1
      then .ok (wholeOf q) else .error .castRange) := by
  have hq : q ≠ 0 := by rintro rfl; norm_num at h1
  have hn : Normal f q := Or.inr (by have := minNormal_lt_one f; linarith)
  have hz : z = false := hx.z_false hq
  subst hz
  have hfl := floor_check_eq hf hx hn
  have hl := Int.floor_le q
  have hu := Int.lt_floor_add_one q
  have hδ : Rep f (q - ⌊q⌋) := rep_sub_int hf hx.rep h1 (by rw [abs_le]; constructor <;> linarith)
  have hδo : overflows f (q - ⌊q⌋) = false :=
    overflows_small (by rw [abs_le]; constructor <;> linarith)
  have hsub : ∃ w, (fin q false : FV f) - fin ⌊q⌋ false = fin (q - ⌊q⌋) w := by
    rw [fin_sub_rep hδ hδo]; exact ⟨_, rfl⟩
  obtain ⟨w, hw⟩ := hsub
  have hcond : (d (1/2) ≤ fabs ((fin q false : FV f) - fin ⌊q⌋ false)) ↔ 1/2 ≤ q - ⌊q⌋ := by
    rw [hw, d_half]
    obtain ⟨w2, hw2⟩ := fabs_fin' (f := f) (q - ⌊q⌋) w
    rw [hw2, fin_le, abs_of_nonneg (by linarith)]
  unfold find_fraction find_whole
  rw [hfl]
  simp only [bind, Except.bind]
  by_cases hc : 1/2 ≤ q - ⌊q⌋
  · rw [if_pos (hcond.2 hc), if_pos (hcond.2 hc)]
    -- |q| < 2^p since otherwise integral
    have hlt : |q| < 2 ^ (f.prec - 1) := by
      by_contra hb
      obtain ⟨n, hn'⟩ := int_of_big hf hx.rep (not_lt.1 hb)
      rw [hn', Int.floor_intCast, sub_self] at hc
      norm_num at hc
    have hP := pow_prec_bound f
    have hfb : |⌊q⌋| ≤ 2 ^ (f.prec - 1) := by
      have : (|(⌊q⌋ : ℚ)|) < 2 ^ (f.prec - 1) + 1 := by
        rw [abs_lt] at hlt ⊢; constructor <;> linarith
      have h2 : |⌊q⌋| < 2 ^ (f.prec - 1) + 1 := by
        rw [← Int.cast_abs] at this; exact_mod_cast this
      omega
    have hWi : ∀ s : ℤ, |s| ≤ 1 → |⌊q⌋ + s| ≤ 2 ^ f.prec := by
      intro s hs
      have := abs_add_le ⌊q⌋ s
      omega
    rcases lt_or_gt_of_ne hq with hneg | hpos
    · have hW : wholeOf q = ⌊q⌋ - 1 := by unfold wholeOf; rw [if_pos hc, if_neg (not_lt.2 hneg.le), if_pos hneg]
      have hs : sgn (fin q false : FV f) = -1 := by simp [hneg, not_lt.2 hneg.le]
      rw [hs, i_neg_one, hW]
      have hsum : (fin ⌊q⌋ false : FV f) + fin (-1) false = fin ((⌊q⌋ - 1 : ℤ) : ℚ) false := by
        have e : (⌊q⌋ : ℚ) + -1 = ((⌊q⌋ + -1 : ℤ) : ℚ) := by push_cast; ring
        rw [fin_add_rep (by rw [e]; exact rep_int (hWi (-1) (by simp)))
          (by rw [e]; exact overflows_int (hWi (-1) (by simp)))]
        simp [sub_eq_add_neg]
      rw [hsum, hw]
      constructor
      · have e : q - ⌊q⌋ - -1 = q - ((⌊q⌋ - 1 : ℤ) : ℚ) := by push_cast; ring
        rw [fin_sub_rep]
        · rw [e]; exact ⟨_, rfl⟩
        · rw [e]; exact rep_sub_int hf hx.rep h1 (by push_cast; rw [abs_le]; constructor <;> linarith)
        · rw [e]; exact overflows_small (by push_cast; rw [abs_le]; constructor <;> linarith)
      · exact toI64_int _
    · have hW : wholeOf q = ⌊q⌋ + 1 := by unfold wholeOf; rw [if_pos hc, if_pos hpos]
      have hs : sgn (fin q false : FV f) = 1 := by simp [hpos]
      rw [hs, i_one, hW]
      have hsum : (fin ⌊q⌋ false : FV f) + fin 1 false = fin ((⌊q⌋ + 1 : ℤ) : ℚ) false := by
        have e : (⌊q⌋ : ℚ) + 1 = ((⌊q⌋ + 1 : ℤ) : ℚ) := by push_cast; ring
        rw [fin_add_rep (by rw [e]; exact rep_int (hWi 1 (by simp)))
          (by rw [e]; exact overflows_int (hWi 1 (by simp)))]
        simp
      rw [hsum, hw]
      constructor
      · have e : q - ⌊q⌋ - 1 = q - ((⌊q⌋ + 1 : ℤ) : ℚ) := by push_cast; ring
        rw [fin_sub_rep]
        · rw [e]; exact ⟨_, rfl⟩
        · rw [e]; exact rep_sub_int hf hx.rep h1 (by push_cast; rw [abs_le]; constructor <;> linarith)
        · rw [e]; exact overflows_small (by push_cast; rw [abs_le]; constructor <;> linarith)
      · exact toI64_int _
  · rw [if_neg (fun h => hc (hcond.1 h)), if_neg (fun h => hc (hcond.1 h))]
    have hW : wholeOf q = ⌊q⌋ := by unfold wholeOf; rw [if_neg hc]
    rw [hW, hw]
    exact ⟨⟨_, rfl⟩, toI64_int _⟩

end Gcem
