import Verif.Props.TgammaAcc
import Verif.Props.BetaAcc

/-!
# C77: accuracy of tgamma at negative arguments
-/

namespace Gcem.Props
open Gcem FV
variable {f : Fmt}

/-- adding one to a value at most `-1/2` is exact -/
theorem rep_succ_neg {q : ℚ} (hf : f.exact = false) (hr : Rep f q) (h1 : q ≤ -(1 / 2)) (h2 : -2 ^ 22 ≤ q) : Rep f (q + 1) := by
  have hq : q ≠ 0 := by linarith
  obtain ⟨m, hm, hb⟩ := rep_scaled hf hq hr
  have hl : ilog2 q < 23 := by
    rw [ilog2_lt_iff hq, abs_of_neg (by linarith)]
    have : pow2 23 = 2 ^ 23 := by norm_num [pow2_eq]
    rw [this]; norm_num at h2 ⊢; linarith
  have he : fexp f q ≤ 0 := by
    have hp : (24:ℤ) ≤ f.prec := by rcases f with ⟨⟨⟩, _⟩ <;> simp [Fmt.prec, FTy.prec]
    have hm : f.emin ≤ 0 := by rcases f with ⟨⟨⟩, ⟨⟩⟩ <;> decide
    unfold fexp; omega
  obtain ⟨k, hk0, hk⟩ := pow2_mult he
  have h3 : pow2 0 = 1 := by norm_num [pow2_eq]
  have e : q + 1 = ((m + k : ℤ) : ℚ) * pow2 (fexp f q) := by
    push_cast
    rw [add_mul, ← hk, ← hm, h3]
  have hpos := pow2_pos (fexp f q)
  have hle : |m + k| ≤ |m| := by
    have h4 : |((m + k : ℤ) : ℚ) * pow2 (fexp f q)| ≤ |(m:ℚ) * pow2 (fexp f q)| := by
      rw [← e, ← hm, abs_of_neg (show q < 0 by linarith), abs_le]
      constructor <;> linarith
    rw [abs_mul, abs_mul] at h4
    have h5 := le_of_mul_le_mul_right h4 (abs_pos.2 hpos.ne')
    exact_mod_cast h5
  rw [e]
  refine rep_of_scaled (by omega) ?_
  unfold fexp; exact le_max_right _ _

/-- the quotient step: `r ≈ Γ(q+1)` gives `r / q ≈ Γ(q)` -/
theorem tg_div {q r : ℚ} {w z : Bool} {K : ℝ} (hq : q < 0) (hK : K ≤ 1 / 2)
    (hG : 2 * ((minNormal f : ℚ) : ℝ) ≤ |Real.Gamma q|) (hG2 : |Real.Gamma q| ≤ 2 ^ 126)
    (b : |(r:ℝ) - Real.Gamma (q + 1)| ≤ K * |Real.Gamma (q + 1)|) :
    ∃ r' w', (fin r w / fin q z : FV f) = fin r' w' ∧
      |(r':ℝ) - Real.Gamma q| ≤ (K + 3 / 2 * uro f) * |Real.Gamma q| := by
  have hq' : (q:ℝ) < 0 := by exact_mod_cast hq
  have hu := uro_pos_real f
  rw [Real.Gamma_add_one hq'.ne, abs_mul] at b
  generalize Real.Gamma q = G at *
  have hqa : 0 < |(q:ℝ)| := abs_pos.2 hq'.ne
  have b1 : |(r:ℝ) / q - G| ≤ K * |G| := by
    rw [show (r:ℝ) / q - G = (r - q * G) / q by have := hq'.ne; field_simp, abs_div, div_le_iff₀ hqa]
    linarith
  have hlo : |G| - K * |G| ≤ |(r:ℝ) / q| := by
    have := abs_sub_abs_le_abs_sub G ((r:ℝ) / q)
    rw [abs_sub_comm] at this; linarith
  have hhi : |(r:ℝ) / q| ≤ |G| + K * |G| := by
    have := abs_sub_abs_le_abs_sub ((r:ℝ) / q) G
    linarith
  have hKG : K * |G| ≤ 1 / 2 * |G| := mul_le_mul_of_nonneg_right hK (abs_nonneg _)
  have hm : minNormal f ≤ |r / q| := by
    rw [← Rat.cast_le (K := ℝ)]; push_cast; linarith
  have hov : |r / q| ≤ 2 ^ 127 := by
    rw [← Rat.cast_le (K := ℝ)]; push_cast; norm_num at hG2 ⊢; linarith
  obtain ⟨w', e⟩ := (is_fin (f := f) r w).div (is_fin q z) hq.ne (nov hov)
  refine ⟨_, w', e, ?_⟩
  have h1 := (Rat.cast_le (K := ℝ)).2 (rnd_err_rel hm)
  push_cast at h1
  have h2 := abs_add_le (((rnd f (r / q) : ℚ) : ℝ) - r / q) (r / q - G)
  rw [sub_add_sub_cancel] at h2
  have h3 : (uro f : ℝ) * |(r:ℝ) / q| ≤ uro f * (3 / 2 * |G|) := by
    gcongr; linarith
  linarith

/-- a relative change of the argument of `Γ` on `[1/2, 1]` -/
theorem gamma_near {s y u : ℝ} (hu : 0 < u) (hu7 : u ≤ 1 / 10 ^ 7) (hs : 1 / 2 ≤ s) (hs1 : s ≤ 1) (hy : 1 / 2 ≤ y) (hy1 : y ≤ 1)
    (h : |y - s| ≤ u) : |Real.Gamma y - Real.Gamma s| ≤ 33 / 10 * u * Real.Gamma s := by
  have hG := Real.Gamma_pos_of_pos (show 0 < s by linarith)
  have hGy := Real.Gamma_pos_of_pos (show 0 < y by linarith)
  have e : ∀ t : ℝ, 0 < t → Real.log (Real.Gamma t) = Real.log (Real.Gamma (t + 1)) - Real.log t := fun t ht => by
    rw [Real.Gamma_add_one ht.ne', Real.log_mul ht.ne' (Real.Gamma_pos_of_pos ht).ne']; ring
  have h1 : |Real.log (Real.Gamma (y + 1)) - Real.log (Real.Gamma (s + 1))| ≤ u * (115 / 100) := by
    rcases le_total s y with hsy | hsy
    · have := lg_mid (a := s + 1) (b := y + 1) (by linarith) (by linarith) (by linarith)
      refine this.trans ?_
      have := (abs_le.1 h).2
      gcongr; linarith
    · have := lg_mid (a := y + 1) (b := s + 1) (by linarith) (by linarith) (by linarith)
      rw [abs_sub_comm]
      refine this.trans ?_
      have := (abs_le.1 h).1
      gcongr; linarith
  have h2 : |Real.log y - Real.log s| ≤ 2 * u := by
    have b := abs_le.1 h
    rw [← Real.log_div (by linarith) (by linarith), abs_le]
    constructor
    · have := Real.one_sub_inv_le_log_of_pos (show 0 < y / s by positivity)
      rw [inv_div] at this
      have h3 : s / y ≤ 1 + 2 * u := by rw [div_le_iff₀ (by linarith)]; nlinarith
      linarith
    · have := Real.log_le_sub_one_of_pos (show 0 < y / s by positivity)
      have h3 : y / s ≤ 1 + 2 * u := by rw [div_le_iff₀ (by linarith)]; nlinarith
      linarith
  have h3 : |Real.log (Real.Gamma y) - Real.log (Real.Gamma s)| ≤ 315 / 100 * u := by
    rw [e y (by linarith), e s (by linarith)]
    have := abs_sub (Real.log (Real.Gamma (y + 1)) - Real.log (Real.Gamma (s + 1))) (Real.log y - Real.log s)
    rw [show ∀ a b c d : ℝ, a - b - (c - d) = (a - c) - (b - d) by intros; ring] at this
    linarith
  have h4 := exp_drift (E := Real.Gamma s) (l := Real.log (Real.Gamma y)) (t := Real.log (Real.Gamma s)) (D := 315 / 100 * u)
    (r := Real.Gamma y) (a := 0) (by norm_num at hu7 ⊢; linarith) h3 le_rfl (by rw [Real.exp_log hGy]; simp) (Real.exp_log hG)
  refine h4.trans (mul_le_mul_of_nonneg_right ?_ hG.le)
  linarith

theorem gamma_le_inv {x : ℝ} (h0 : 0 < x) (h1 : x ≤ 1) : Real.Gamma x ≤ 1 / x := by
  have := log_gamma_le h0 h1
  rw [← Real.log_inv, Real.log_le_log_iff (Real.Gamma_pos_of_pos h0) (by positivity)] at this
  rwa [one_div]

/-- the positive arguments reached by the recursion -/
theorem tg_unit (hf : f.exact = false) (q : ℚ) (z : Bool) (hx : Valid (fin q z : FV f)) (h1 : 8192 * uro f ≤ q) (h2 : q ≤ 1) :
    ∃ r w, tgamma (fin q z : FV f) = .ok (fin r w) ∧
      |(r:ℝ) - Real.Gamma q| ≤ ((300 + (if q < 1 / 2 then 8 / (q:ℝ) else 0)) * uro f + 19 / 10 ^ 15) * Real.Gamma q := by
  have hu := uro_pos_real f
  have hup := uro_pos f
  have hq0 : 0 < q := by linarith
  have hG := Real.Gamma_pos_of_pos (show (0:ℝ) < q by exact_mod_cast hq0)
  split_ifs with h
  · obtain ⟨r, e, -, b⟩ := C73_small hf q z hx (by
      have : uro f = 1 / 2 ^ f.prec := by unfold uro; rw [pow2_eq]; simp
      rw [this] at h1; refine le_trans (le_of_eq ?_) h1; ring) h
    refine ⟨r, false, e, b.trans (mul_le_mul_of_nonneg_right ?_ hG.le)⟩
    have : (260 + 8 / (q:ℝ)) / 2 ^ f.prec = (260 + 8 / (q:ℝ)) * uro f := by rw [uro_eq]; ring
    rw [this]; linarith
  · have h := not_lt.1 h
    have hq1 : (q:ℝ) ≤ 1 := by exact_mod_cast h2
    have hqh : (1 / 2:ℝ) ≤ q := by have := (Rat.cast_le (K := ℝ)).2 h; push_cast at this; exact this
    obtain ⟨r, e, -, b⟩ := C73_accuracy hf q z hx h (h2.trans (by rcases f with ⟨⟨⟩, _⟩ <;> norm_num [tgMax]))
    refine ⟨r, false, e, b.trans (mul_le_mul_of_nonneg_right ?_ hG.le)⟩
    have hl : Real.log ((q:ℝ) + 6) ≤ 2 := by
      rw [Real.log_le_iff_le_exp (by linarith)]
      have h3 := Real.exp_one_gt_d9
      have : Real.exp 2 = Real.exp 1 * Real.exp 1 := by rw [← Real.exp_add]; norm_num
      rw [this]; norm_num at h3; nlinarith
    have hl0 : 0 ≤ Real.log ((q:ℝ) + 6) := Real.log_nonneg (by linarith)
    have : (245 + 27 * (q:ℝ) * Real.log (q + 6)) / 2 ^ f.prec = (245 + 27 * (q:ℝ) * Real.log (q + 6)) * uro f := by rw [uro_eq]; ring
    rw [this]
    have : (q:ℝ) * Real.log (q + 6) ≤ 1 * 2 := by gcongr
    have : (245 + 27 * (q:ℝ) * Real.log (q + 6)) * uro f ≤ 300 * uro f := by gcongr; linarith
    linarith

/-- arguments in `(-1, 0)` -/
theorem tg_first (hf : f.exact = false) (q : ℚ) (z : Bool) (hx : Valid (fin q z : FV f)) (h1 : -1 + 8192 * uro f ≤ q) (h2 : q < 0)
    (h3 : 1 / 2 ^ 125 ≤ -q) (hG : 2 * ((minNormal f : ℚ) : ℝ) ≤ |Real.Gamma q|) :
    |Real.Gamma q| ≤ 2 ^ 126 ∧ ∃ r w, tgamma (fin q z : FV f) = .ok (fin r w) ∧
      |(r:ℝ) - Real.Gamma q| ≤ ((312 + 8 / (q + 1 : ℝ)) * uro f + 20 / 10 ^ 15) * |Real.Gamma q| := by
  have hu := uro_pos_real f
  have hup := uro_pos f
  have hu7 := uro7_real f
  have hu7' := uro_le7 f
  have h1' : -1 + 8192 * (uro f : ℝ) ≤ q := by have := (Rat.cast_le (K := ℝ)).2 h1; push_cast at this; exact this
  have h2' : (q:ℝ) < 0 := by exact_mod_cast h2
  have h3' : (1:ℝ) / 2 ^ 125 ≤ -q := by have := (Rat.cast_le (K := ℝ)).2 h3; push_cast at this; exact this
  have hub : 8 / (q + 1 : ℝ) * uro f ≤ 1 / 1024 := by
    rw [div_mul_eq_mul_div, div_le_iff₀ (by linarith)]; linarith
  have h8 : 0 ≤ 8 / (q + 1 : ℝ) := div_nonneg (by norm_num) (by linarith)
  have hGle : |Real.Gamma q| ≤ 2 ^ 126 := by
    have hg := gamma_le_inv (x := (q:ℝ) + 1) (by linarith) (by linarith)
    have hg0 := Real.Gamma_pos_of_pos (show 0 < (q:ℝ) + 1 by linarith)
    have e : |Real.Gamma q| = Real.Gamma (q + 1) / -q := by
      rw [Real.Gamma_add_one h2'.ne, eq_div_iff (by linarith)]
      rw [Real.Gamma_add_one h2'.ne] at hg0
      rw [← abs_of_neg h2', ← abs_mul, mul_comm, abs_of_pos hg0]
    rw [e, div_le_iff₀ (by linarith)]
    refine hg.trans ?_
    rw [div_le_iff₀ (by linarith)]
    have hul : (1:ℝ) / 2 ^ 64 ≤ uro f := by have := (Rat.cast_le (K := ℝ)).2 (uro_ge f); push_cast at this; exact this
    rcases le_total (q:ℝ) (-(1 / 2)) with h | h
    · norm_num at hul ⊢; nlinarith
    · norm_num at h3' ⊢; nlinarith
  refine ⟨hGle, ?_⟩
  have hmn : minNormal f ≤ |q| := by rw [abs_of_neg h2]; exact (minNormal_le' f).trans h3
  have hi : ∀ n : ℤ, q ≠ n := by
    rintro n rfl
    have a1 : (-1:ℚ) < n := by linarith
    have a1 : -1 < n := by exact_mod_cast a1
    have a2 : n < 0 := by exact_mod_cast h2
    omega
  have hrec := C53_tgamma_recursion hf q z hx h2 hmn hi (by norm_num; linarith)
  have iy : Is (fin q z + fin 1 false : FV f) (rnd f (q + 1)) :=
    (is_fin q z).add (is_fin 1 false) (nov (by rw [abs_le]; constructor <;> norm_num <;> linarith))
  have hvy : Valid (fin q z + fin 1 false : FV f) := valid_add _ _
  obtain ⟨y, hy⟩ : ∃ y, y = rnd f (q + 1) := ⟨_, rfl⟩
  have hr1 : Rep f (1:ℚ) := by have := rep_int (f := f) (n := 1) (by rcases f with ⟨⟨⟩, _⟩ <;> norm_num [Fmt.prec, FTy.prec]); simpa using this
  have key : ∃ K : ℝ, 0 ≤ K ∧ K ≤ (310 + 8 / (q + 1 : ℝ)) * uro f + 20 / 10 ^ 15 ∧ ∃ r w, tgamma (fin q z + fin 1 false : FV f) = .ok (fin r w) ∧
      |(r:ℝ) - Real.Gamma (q + 1)| ≤ K * |Real.Gamma (q + 1)| := by
    rw [abs_of_pos (Real.Gamma_pos_of_pos (show 0 < (q:ℝ) + 1 by linarith))]
    rcases le_or_gt q (-(1 / 2)) with h | h
    · rw [rep_succ_neg hf hx.rep h (by norm_num; linarith)] at iy
      obtain ⟨zy, ey⟩ := iy
      rw [ey] at hvy
      obtain ⟨r, w, e, b⟩ := tg_unit hf (q + 1) zy hvy (by linarith) (by linarith)
      push_cast at b
      refine ⟨_, ?_, ?_, r, w, by rw [ey]; exact e, b⟩
      · split_ifs <;> positivity
      · have : (if q + 1 < 1 / 2 then 8 / ((q:ℝ) + 1) else 0) ≤ 8 / ((q:ℝ) + 1) := by split_ifs; exacts [le_rfl, h8]
        have := mul_le_mul_of_nonneg_right this hu.le
        linarith
    · rw [← hy] at iy
      obtain ⟨zy, ey⟩ := iy
      rw [ey] at hvy
      have hy1 : y ≤ 1 := by rw [hy]; exact rnd_le_of_rep hr1 (by linarith)
      have hyh : 1 / 2 ≤ y := by
        rw [hy]
        refine le_rnd_of_rep ?_ (by linarith)
        have := rep_succ_neg (f := f) (q := -(1 / 2)) hf (by
          have := rep_of_scaled (f := f) (m := -1) (e := -1) (by rcases f with ⟨⟨⟩, _⟩ <;> norm_num [Fmt.prec, FTy.prec]) (by rcases f with ⟨⟨⟩, ⟨⟩⟩ <;> decide)
          norm_num [pow2_eq] at this ⊢; exact this) le_rfl (by norm_num)
        norm_num at this ⊢; exact this
      have hd : |(y:ℝ) - (q + 1)| ≤ uro f := by
        have := rnd_add_real hx.rep hr1
        rw [← hy] at this; push_cast at this
        refine this.trans ?_
        have h4 : |(q:ℝ) + 1| ≤ 1 := by rw [abs_le]; constructor <;> linarith
        nlinarith
      have hqh : (-(1 / 2):ℝ) < q := by have := (Rat.cast_lt (K := ℝ)).2 h; push_cast at this; exact this
      have hyr : (1 / 2:ℝ) ≤ y := by have := (Rat.cast_le (K := ℝ)).2 hyh; push_cast at this; exact this
      obtain ⟨r, w, e, b⟩ := tg_unit hf y zy hvy (by norm_num at hu7'; linarith) hy1
      rw [if_neg (not_lt.2 hyh)] at b
      have hg := gamma_near hu hu7 (s := q + 1) (y := y) (by linarith) (by linarith) hyr (by exact_mod_cast hy1) hd
      have hG1 := Real.Gamma_pos_of_pos (show 0 < (q:ℝ) + 1 by linarith)
      refine ⟨(305 * uro f + 20 / 10 ^ 15), by positivity, by nlinarith, r, w, by rw [ey]; exact e, ?_⟩
      generalize Real.Gamma (q + 1) = G at *
      generalize Real.Gamma (y:ℝ) = Gy at *
      have hGy : Gy ≤ 1001 / 1000 * G := by
        have := (abs_le.1 hg).2
        have : 33 / 10 * (uro f : ℝ) * G ≤ 1 / 1000 * G := by gcongr; norm_num at hu7 ⊢; linarith
        linarith
      have t := abs_add_le ((r:ℝ) - Gy) (Gy - G)
      rw [sub_add_sub_cancel] at t
      have h5 : ((300 + 0) * (uro f:ℝ) + 19 / 10 ^ 15) * Gy ≤ ((300 + 0) * (uro f:ℝ) + 19 / 10 ^ 15) * (1001 / 1000 * G) := by gcongr
      have h6 : 0 ≤ (uro f:ℝ) * G := by positivity
      norm_num at t h5 b hg ⊢
      linarith
  obtain ⟨K, hK0, hK, r, w, e, b⟩ := key
  obtain ⟨r', w', e', b'⟩ := tg_div (w := w) (z := z) h2 (by norm_num at hK hu7; linarith) hG hGle b
  refine ⟨r', w', by rw [hrec, e]; simp only [Except.bind]; rw [e'], b'.trans (mul_le_mul_of_nonneg_right ?_ (abs_nonneg _))⟩
  linarith

theorem tg_main (hf : f.exact = false) (n : ℕ) : ∀ (q : ℚ) (z : Bool), Valid (fin q z : FV f) → n ≤ 2000 →
    -((n:ℚ) + 1) + 8192 * uro f ≤ q → q < -n → 1 / 2 ^ 125 ≤ -q → 2 * ((minNormal f : ℚ) : ℝ) ≤ |Real.Gamma q| →
    |Real.Gamma q| ≤ 2 ^ 126 ∧ ∃ r w, tgamma (fin q z : FV f) = .ok (fin r w) ∧
      |(r:ℝ) - Real.Gamma q| ≤ ((312 + 8 / (q + n + 1 : ℝ) + 2 * n) * uro f + 20 / 10 ^ 15) * |Real.Gamma q| := by
  induction n with
  | zero =>
    intro q z hx _ h1 h2 h3 hG
    have := tg_first hf q z hx (by simpa using h1) (by simpa using h2) h3 hG
    simpa using this
  | succ n ih =>
    intro q z hx hn h1 h2 h3 hG
    have hu := uro_pos_real f
    have hup := uro_pos f
    have hu7 := uro7_real f
    push_cast at h1 h2
    have hn0 : (0:ℚ) ≤ n := by positivity
    have hn2 : (n:ℚ) + 1 ≤ 2000 := by exact_mod_cast hn
    have hq0 : q < 0 := by linarith
    have hq0' : (q:ℝ) < 0 := by exact_mod_cast hq0
    have hq1 : (1:ℝ) ≤ |(q:ℝ)| := by
      rw [abs_of_neg hq0']
      have : (1:ℚ) ≤ -q := by linarith
      exact_mod_cast this
    have hrep := rep_succ_neg hf hx.rep (by linarith) (by norm_num; linarith)
    have iy : Is (fin q z + fin 1 false : FV f) (rnd f (q + 1)) :=
      (is_fin q z).add (is_fin 1 false) (nov (by rw [abs_le]; constructor <;> norm_num <;> linarith))
    have hvy : Valid (fin q z + fin 1 false : FV f) := valid_add _ _
    rw [hrep] at iy
    obtain ⟨zy, ey⟩ := iy
    rw [ey] at hvy
    have hGe : |Real.Gamma (q + 1)| = |(q:ℝ)| * |Real.Gamma q| := by rw [Real.Gamma_add_one hq0'.ne, abs_mul]
    have hGG : |Real.Gamma q| ≤ |Real.Gamma (q + 1)| := by rw [hGe]; nlinarith [abs_nonneg (Real.Gamma q)]
    obtain ⟨g1, r, w, e, b⟩ := ih (q + 1) zy hvy (by omega) (by linarith) (by linarith) (by
      rcases Nat.eq_zero_or_pos n with rfl | h
      · have hne : -q ≠ 1 := by push_cast at h2; intro h; linarith
        have := sub_one_ge hf hx.rep.neg (by push_cast at h2; linarith) (by push_cast at h1; linarith) hne
        rw [abs_of_pos (by push_cast at h2; linarith)] at this
        have h64 := uro_ge f
        norm_num at h64 ⊢; linarith
      · have : (1:ℚ) ≤ n := by exact_mod_cast h
        norm_num; linarith) (by push_cast; linarith)
    push_cast at g1 b
    have hmn : minNormal f ≤ |q| := by rw [abs_of_neg hq0]; exact (minNormal_le' f).trans h3
    have hi : ∀ n : ℤ, q ≠ n := by
      rintro k rfl
      have a1 : (-(n + 1 + 1):ℚ) < k := by linarith
      have a1 : -((n:ℤ) + 1 + 1) < k := by exact_mod_cast a1
      have a2 : k < -((n:ℤ) + 1) := by exact_mod_cast h2
      omega
    have hrec := C53_tgamma_recursion hf q z hx hq0 hmn hi (by norm_num; linarith)
    refine ⟨hGG.trans g1, ?_⟩
    have ht : 8192 * (uro f : ℝ) ≤ q + 1 + n + 1 := by
      have : 8192 * uro f ≤ q + 1 + n + 1 := by linarith
      have := (Rat.cast_le (K := ℝ)).2 this; push_cast at this; exact this
    have hub : 8 / (q + 1 + n + 1 : ℝ) * uro f ≤ 1 / 1024 := by
      rw [div_mul_eq_mul_div, div_le_iff₀ (by linarith)]; linarith
    have hn2' : (n:ℝ) + 1 ≤ 2000 := by exact_mod_cast hn
    have hnu : (n:ℝ) * uro f ≤ 2000 * uro f := by gcongr; linarith
    obtain ⟨r', w', e', b'⟩ := tg_div (w := w) (z := z) hq0 (by norm_num at hu7 ⊢; linarith) hG (hGG.trans g1) b
    refine ⟨r', w', by rw [hrec, ey, e]; simp only [Except.bind]; rw [e'], b'.trans (mul_le_mul_of_nonneg_right ?_ (abs_nonneg _))⟩
    push_cast
    rw [show (q:ℝ) + (n + 1) + 1 = q + 1 + n + 1 by ring]
    linarith

/-- C77: `tgamma` at negative non-integers. Between the poles `-n` and `1 - n` (with `1 ≤ n ≤ 2000`), at a distance of at
least `8192 u` above the lower pole and `2^-125` below zero, wherever `|Γ(q)|` is at least twice the smallest normal number,
the result is finite with relative error at most `(310 + 8/(q+n) + 2n) u + 2e-14`. -/
theorem C77_accuracy (hf : f.exact = false) (n : ℕ) (q : ℚ) (z : Bool) (hx : Valid (fin q z : FV f)) (hn1 : 1 ≤ n) (hn : n ≤ 2000)
    (h1 : -(n:ℚ) + 8192 / 2 ^ f.prec ≤ q) (h2 : q < 1 - n) (h3 : q ≤ -(1 / 2 ^ 125))
    (hG : 2 * ((minNormal f : ℚ) : ℝ) ≤ |Real.Gamma q|) :
    ∃ r w, tgamma (fin q z : FV f) = .ok (fin r w) ∧
      |(r:ℝ) - Real.Gamma q| ≤ ((310 + 8 / (q + n) + 2 * n) / 2 ^ f.prec + 20 / 10 ^ 15) * |Real.Gamma q| := by
  obtain ⟨m, rfl⟩ : ∃ m, n = m + 1 := ⟨n - 1, by omega⟩
  have hue : uro f = 1 / 2 ^ f.prec := by unfold uro; rw [pow2_eq]; simp
  push_cast at h1 h2
  obtain ⟨-, r, w, e, b⟩ := tg_main hf m q z hx (by omega) (by rw [hue]; rw [div_eq_mul_one_div] at h1; exact h1) (by linarith)
    (by linarith) hG
  refine ⟨r, w, e, b.trans (le_of_eq ?_)⟩
  rw [uro_eq]; push_cast
  rw [show (q:ℝ) + (m + 1) = q + m + 1 by ring]
  ring

/-- `Γ(-5/2) = -8√π/15`, and `tgamma(-2.5)` in double approximates it -/
example : ∃ r w, tgamma (fin (-5 / 2) false : FV binary64) = .ok (fin r w) ∧
    |(r:ℝ) - Real.Gamma (-5 / 2)| ≤ 1 / 10 ^ 12 := by
  have e : Real.Gamma (-5 / 2) = -(8 / 15) * √Real.pi := by
    have h1 := Real.Gamma_add_one (s := -5 / 2) (by norm_num)
    have h2 := Real.Gamma_add_one (s := -3 / 2) (by norm_num)
    have h3 := Real.Gamma_add_one (s := -1 / 2) (by norm_num)
    norm_num at h1 h2 h3
    rw [Real.Gamma_one_half_eq] at h3
    linarith
  have hs1 : √Real.pi ≤ 2 := by rw [Real.sqrt_le_iff]; exact ⟨by norm_num, by linarith [Real.pi_le_four]⟩
  have hs2 : 1 ≤ √Real.pi := by rw [Real.one_le_sqrt]; linarith [Real.pi_gt_three]
  have ea : |Real.Gamma (-5 / 2)| = 8 / 15 * √Real.pi := by rw [e, abs_mul, abs_of_neg (by norm_num), abs_of_nonneg (by positivity)]; ring
  have hv : Valid (fin (-5 / 2) false : FV binary64) := by decide +kernel
  obtain ⟨r, w, h, b⟩ := C77_accuracy (f := binary64) rfl 3 (-5 / 2) false hv (by norm_num) (by norm_num)
    (by norm_num [Fmt.prec, FTy.prec]) (by norm_num) (by norm_num) (by
      have hm := (Rat.cast_le (K := ℝ)).2 (minNormal_le' binary64)
      push_cast at hm ⊢
      rw [ea]; norm_num at hm ⊢; linarith)
  refine ⟨r, w, h, ?_⟩
  push_cast at b
  rw [ea] at b
  refine b.trans ?_
  norm_num [Fmt.prec, FTy.prec]
  linarith

end Gcem.Props
