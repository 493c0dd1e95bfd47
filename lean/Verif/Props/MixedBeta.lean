import Verif.Props.Mixed
import Verif.Props.BetaAcc
import Verif.Props.Incomplete
import Verif.IntLemmas

/-!
# C85: lbeta and beta with integral or mixed arguments
-/

namespace Gcem.Props

open FV Gcem.IntTy

theorem lgammaA_total (a : Arg) : ∃ v, lgammaA a = .ok v ∧ Valid v := by
  obtain ⟨v, hv⟩ := C53_lgamma_total (f := (returnTy a.ty).fmt) rfl (a.to _)
  exact ⟨v, hv, valid_lgamma hv⟩

theorem addA_int (s t : IntTy) (n m : ℤ) (hn : (common s t).has n) (hm : (common s t).has m) :
    addA (.int s n) (.int t m) = ((common s t).arith (n + m)).bind fun r => .ok (.int (common s t) r) := by
  show ((common s t).arith ((common s t).conv n + (common s t).conv m)).bind _ = _
  rw [conv_of_has hn, conv_of_has hm]

/-- C85: for integer arguments of a signed common type the call is undefined as soon as `a + b` does not fit that
type, although the result is an ordinary small `double`. -/
theorem C85_int_overflow (s t : IntTy) (n m : ℤ) (hs : (common s t).signed = true) (hn : (common s t).has n)
    (hm : (common s t).has m) (h : ¬ (common s t).has (n + m)) :
    lbetaA (.int s n) (.int t m) = .error .intOverflow ∧ betaA (.int s n) (.int t m) = .error .intOverflow := by
  have e : lbetaA (.int s n) (.int t m) = .error .intOverflow := by
    obtain ⟨la, ea, -⟩ := lgammaA_total (.int s n)
    obtain ⟨lb, eb, -⟩ := lgammaA_total (.int t m)
    unfold lbetaA
    rw [ea, eb, addA_int s t n m hn hm]
    unfold arith
    rw [if_pos hs, if_neg h]
    rfl
  exact ⟨e, by unfold betaA; rw [e]; rfl⟩

example : IntTy.int.has 2147483647 ∧ IntTy.int.has 1 ∧ ¬ IntTy.int.has (2147483647 + 1) ∧
    (common .int .int).signed = true := by decide

/-- C85: if the sum fits the common type and stays within `2^53`, the integer call is the `double` call (whose error
is bounded by C74). -/
theorem C85_int_value (s t : IntTy) (n m : ℤ) (hn : (common s t).has n) (hm : (common s t).has m)
    (h : (common s t).has (n + m)) (n2 : |n| ≤ 2 ^ 53) (m2 : |m| ≤ 2 ^ 53) (h2 : |n + m| ≤ 2 ^ 53) :
    lbetaA (.int s n) (.int t m) = lbeta (fin n false : FV binary64) (fin m false) ∧
    betaA (.int s n) (.int t m) = beta (fin n false : FV binary64) (fin m false) := by
  have en : ((Arg.int s n).to .double : FV binary64) = fin n false := i_eq n2
  have em : ((Arg.int t m).to .double : FV binary64) = fin m false := i_eq m2
  have eh : ((Arg.int (common s t) (n + m)).to .double : FV binary64) = fin (n + m : ℤ) false := i_eq h2
  have es : (fin n false : FV binary64) + fin m false = fin (n + m : ℤ) false := by
    rw [fin_add, ← Int.cast_add, mk_of_rep (rep_int h2) (overflows_int h2)]
    simp
  have ea : addA (.int s n) (.int t m) = .ok (.int (common s t) (n + m)) := by
    rw [addA_int s t n m hn hm]
    have : (common s t).arith (n + m) = .ok (n + m) := by
      exact arith_of_has h
    rw [this]; rfl
  obtain ⟨la, el, vl⟩ := lgammaA_total (.int s n)
  obtain ⟨lb, eb, vb⟩ := lgammaA_total (.int t m)
  obtain ⟨lc, ec, vc⟩ := lgammaA_total (.int (common s t) (n + m))
  have e1 : lgamma (fin n false : FV binary64) = .ok la := by rw [← en]; exact el
  have e2 : lgamma (fin m false : FV binary64) = .ok lb := by rw [← em]; exact eb
  have e3 : lgamma (fin (n + m : ℤ) false : FV binary64) = .ok lc := by rw [← eh]; exact ec
  have key : lbetaA (.int s n) (.int t m) = lbeta (fin n false : FV binary64) (fin m false) := by
    unfold lbetaA lbeta
    rw [el, eb, ea, es, e1, e2, e3]
    simp only [bind, Except.bind, ec]
    congr 1
    have c1 : FV.cast FTy.double.fmt la = la := cast_self' vl
    have c2 : FV.cast FTy.double.fmt lb = lb := cast_self' vb
    have c3 : FV.cast FTy.double.fmt lc = lc := cast_self' vc
    show FV.cast FTy.double.fmt (FV.cast FTy.double.fmt la + FV.cast FTy.double.fmt lb - FV.cast FTy.double.fmt lc) = _
    rw [c1, c2, c3]
    exact cast_self' (valid_sub _ _)
  exact ⟨key, by unfold betaA beta; rw [key]; rfl⟩

example : (common .int .uint).has 3 ∧ (common .int .uint).has 4 ∧ (common .int .uint).has (3 + 4) := by decide

/-- logarithm of the gamma function at a positive integer argument, as computed -/
theorem lgamma_int (n : ℤ) (h1 : 1 ≤ n) (h2 : n ≤ 2 ^ 64) :
    ∃ r w, lgamma (i n : FV FTy.double.fmt) = .ok (fin r w) ∧ |r| ≤ 2 ^ 126 := by
  have e := i_rounds .double (n := n) (by rw [abs_of_pos (by omega)]; exact h2)
  have hv := valid_i (f := FTy.double.fmt) n
  rw [e] at hv ⊢
  have q1 : 1 ≤ rnd FTy.double.fmt (n:ℚ) :=
    le_rnd_of_rep (by simpa using rep_int (f := FTy.double.fmt) (n := 1) (by decide)) (by exact_mod_cast h1)
  have q2 : rnd FTy.double.fmt (n:ℚ) ≤ 2 ^ 64 := rnd_le_of_rep rep_pow2_nat (by exact_mod_cast h2)
  generalize rnd FTy.double.fmt (n:ℚ) = q at *
  obtain ⟨r, w, el, b⟩ := C72_accuracy rfl q false hv (by linarith) (q2.trans (by norm_num))
  refine ⟨r, w, el, ?_⟩
  have q1' : (1:ℝ) ≤ q := by exact_mod_cast q1
  have q2' : (q:ℝ) ≤ 2 ^ 64 := by have := (Rat.cast_le (K := ℝ)).2 q2; push_cast at this; exact this
  have hA := log_gamma_abs_le (show (1 / 2 : ℝ) ≤ q by linarith)
  have hL : Real.log ((q:ℝ) + 6) ≤ 2 ^ 54 := by
    have := Real.log_le_sub_one_of_pos (show (0:ℝ) < (q + 6) / 2 ^ 12 by positivity)
    rw [Real.log_div (by positivity) (by positivity), Real.log_pow] at this
    have h3 := Real.log_two_lt_d9
    norm_num at this q2' ⊢
    linarith
  have hM : (q:ℝ) * Real.log (q + 6) ≤ 2 ^ 118 := by
    have := mul_le_mul q2' hL (Real.log_nonneg (by linarith)) (by positivity)
    norm_num at this ⊢; linarith
  have hM0 := (abs_nonneg _).trans hA
  have e22 : 22 * (q:ℝ) * Real.log (q + 6) = 22 * (q * Real.log (q + 6)) := by ring
  rw [e22] at b
  have hp : ((2:ℝ) ^ FTy.double.fmt.prec) = 2 ^ 53 := rfl
  rw [hp] at b
  have h4 := abs_sub_abs_le_abs_sub (r:ℝ) (Real.log (Real.Gamma q))
  have : |(r:ℝ)| ≤ 2 ^ 126 := by
    generalize (q:ℝ) * Real.log (q + 6) = M at *
    norm_num at *
    linarith
  have h5 : ((|r| : ℚ) : ℝ) ≤ ((2 ^ 126 : ℚ) : ℝ) := by push_cast; exact this
  exact_mod_cast h5

/-- C85: for unsigned arguments `a + b` wraps.  When `a + b = 2^w` the call takes `lgamma(0)`: `lbeta` is `-inf`
and `beta` is `0`, while the true values are finite and positive. -/
theorem C85_unsigned_wrap (t : IntTy) (hs : t.signed = false) (n m : ℤ) (hn : t.has n) (hm : t.has m)
    (h : n + m = 2 ^ t.w.bits) :
    lbetaA (.int t n) (.int t m) = .ok (inf true) ∧ betaA (.int t n) (.int t m) = .ok (fin 0 false) := by
  have hlo := lo_unsigned hs
  have hhi : t.hi = 2 ^ t.w.bits - 1 := by unfold hi; simp [hs]
  have hb : (2:ℤ) ^ t.w.bits ≤ 2 ^ 64 := by rcases t with ⟨⟨⟩, _⟩ <;> norm_num [Width.bits]
  have hn' := hn
  have hm' := hm
  unfold has at hn' hm'
  obtain ⟨la, wa, ea, ba⟩ := lgamma_int n (by omega) (by omega)
  obtain ⟨lb, wb, eb, bb⟩ := lgamma_int m (by omega) (by omega)
  have hc : common t t = t := common_self t
  have es : addA (.int t n) (.int t m) = .ok (.int (common t t) 0) := by
    rw [addA_int t t n m (by rw [hc]; exact hn) (by rw [hc]; exact hm), h]
    have : (common t t).arith (2 ^ t.w.bits) = .ok 0 := by
      rw [hc, arith_unsigned hs, conv_unsigned hs, show t.mod = 2 ^ t.w.bits from rfl, Int.emod_self]
    rw [this]; rfl
  have e0 : lgammaA (.int (common t t) 0) = .ok (inf false) := by
    refine (C53_lgamma_special (f := FTy.double.fmt) rfl).2.2.1 (i 0) ?_
    decide +kernel
  have ea' : lgammaA (.int t n) = .ok (fin la wa) := ea
  have eb' : lgammaA (.int t m) = .ok (fin lb wb) := eb
  have key : lbetaA (.int t n) (.int t m) = .ok (inf true) := by
    unfold lbetaA
    rw [ea', eb', es]
    simp only [bind, Except.bind, e0]
    refine congrArg Except.ok (?_ : FV.cast FTy.double.fmt (FV.cast FTy.double.fmt (fin la wa : FV FTy.double.fmt) +
      FV.cast FTy.double.fmt (fin lb wb : FV FTy.double.fmt) - inf false) = _)
    have va : Valid (fin la wa : FV FTy.double.fmt) := valid_lgamma ea
    have vb : Valid (fin lb wb : FV FTy.double.fmt) := valid_lgamma eb
    have c1 : FV.cast FTy.double.fmt (fin la wa : FV FTy.double.fmt) = fin la wa := cast_self' va
    have c2 : FV.cast FTy.double.fmt (fin lb wb : FV FTy.double.fmt) = fin lb wb := cast_self' vb
    rw [c1, c2]
    obtain ⟨z, ez⟩ := (is_fin (f := FTy.double.fmt) la wa).add (is_fin lb wb) (nov (by
      refine (abs_add_le _ _).trans ?_
      norm_num at ba bb ⊢; linarith))
    rw [ez]; rfl
  refine ⟨key, ?_⟩
  unfold betaA
  rw [key]
  exact C30_special.2.1

example : IntTy.uint.has 4294967295 ∧ IntTy.uint.has 1 ∧ (4294967295 + 1 : ℤ) = 2 ^ IntTy.uint.w.bits := by decide

/-- the part of `lbeta` in the wider type, with the first two logarithms already computed -/
theorem lbeta_tail {f : Fmt} (hf : f.exact = false) (a b : ℚ) (za zb : Bool) (hxa : Valid (fin a za : FV f)) (hxb : Valid (fin b zb : FV f))
    (a1 : 1 / 2 ≤ a) (a2 : a ≤ 2 ^ 88) (b1 : 1 / 2 ≤ b) (b2 : b ≤ 2 ^ 88) (la lb : ℚ) (wa wb : Bool) (us ut : ℝ)
    (hus : us ≤ 1 / 10 ^ 7) (hut : ut ≤ 1 / 10 ^ 7)
    (bla : |(la:ℝ) - Real.log (Real.Gamma a)| ≤ (111 + 22 * a * Real.log (a + 6)) * us + 18 / 10 ^ 15)
    (blb : |(lb:ℝ) - Real.log (Real.Gamma b)| ≤ (111 + 22 * b * Real.log (b + 6)) * ut + 18 / 10 ^ 15) :
    ∃ lc wc r w, lgamma (fin a za + fin b zb : FV f) = .ok (fin lc wc) ∧ (fin la wa + fin lb wb : FV f) - fin lc wc = fin r w ∧
      |(r:ℝ) - logBeta a b| ≤ (111 + 22 * a * Real.log (a + 6)) * us + (111 + 22 * b * Real.log (b + 6)) * ut +
        (112 + 27 * (a + b) * Real.log (a + b + 6)) * uro f + 54 / 10 ^ 15 := by
  have hu := uro_pos_real f
  have hu7 := uro7_real f
  have a1' : (1 / 2 : ℝ) ≤ a := by have := (Rat.cast_le (K := ℝ)).2 a1; push_cast at this; exact this
  have b1' : (1 / 2 : ℝ) ≤ b := by have := (Rat.cast_le (K := ℝ)).2 b1; push_cast at this; exact this
  have a2' : (a:ℝ) ≤ 2 ^ 88 := by have := (Rat.cast_le (K := ℝ)).2 a2; push_cast at this; exact this
  have b2' : (b:ℝ) ≤ 2 ^ 88 := by have := (Rat.cast_le (K := ℝ)).2 b2; push_cast at this; exact this
  obtain ⟨s1, s2, s3, s4⟩ := sum_sigma hxa.rep hxb.rep a1 b1
  have nS : overflows f (rnd f (a + b)) = false := nov (by
    rw [abs_of_pos (by linarith)]; norm_num at a2 b2 ⊢; linarith)
  obtain ⟨zs, es⟩ := (is_fin (f := f) a za).add (is_fin b zb) nS
  have vs : Valid (fin (rnd f (a + b)) zs : FV f) := es ▸ valid_add _ _
  have s5 : rnd f (a + b) ≤ 2 ^ 90 := by
    have r9 : Rep f ((2:ℚ) ^ 89) := by
      have := rep_of_scaled (f := f) (m := 1) (e := 89) (by have := two_pow_prec f; simp; omega)
        (by rcases f with ⟨⟨⟩, ⟨⟩⟩ <;> decide)
      simpa [pow2_eq] using this
    have := rnd_le_of_rep (q := a + b) r9 (by norm_num at a2 b2 ⊢; linarith)
    norm_num at this ⊢
    linarith
  obtain ⟨lc, wc, elc, blc⟩ := C72_accuracy hf _ zs vs (by linarith) s5
  rw [div_eq_mul_one_div _ ((2:ℝ) ^ f.prec), ← uro_eq] at blc
  have hc : (1:ℝ) ≤ a + b := by linarith
  have s1' : (1:ℝ) ≤ (rnd f (a + b) : ℚ) := by exact_mod_cast s1
  have hΓ := lg_sum_near hu hc (fun h => ⟨s1', by
      have h' : a + b ≤ 2 := by exact_mod_cast h
      have := s2 h'; exact_mod_cast this⟩) (fun h => by
      have h' : 2 ≤ a + b := by exact_mod_cast h
      have := s3 h'; exact_mod_cast this) s4 hu7
  have hσ := qlog_near hu hu7 (by linarith) (by linarith) s4
  have hadd := qlog_add (show (0:ℝ) ≤ a by linarith) (show (0:ℝ) ≤ b by linarith)
  have hA := log_gamma_abs_le a1'
  have hB := log_gamma_abs_le b1'
  have hC := log_gamma_abs_le (show (1 / 2 : ℝ) ≤ a + b by linarith)
  have hcb : (a:ℝ) + b ≤ 2 ^ 89 := by norm_num at a2' b2' ⊢; linarith
  have hM : ((a:ℝ) + b) * Real.log (a + b + 6) ≤ 2 ^ 100 := by
    have h3 : Real.log ((a:ℝ) + b + 6) ≤ 100 := by
      rw [Real.log_le_iff_le_exp (by linarith)]
      have e : Real.exp 100 = Real.exp 1 ^ 100 := by rw [← Real.exp_nat_mul]; norm_num
      rw [e]
      have : (2:ℝ) ^ 100 ≤ Real.exp 1 ^ 100 := pow_le_pow_left₀ (by norm_num) (by have := Real.exp_one_gt_d9; linarith) 100
      norm_num at this hcb ⊢
      linarith
    have := mul_le_mul hcb h3 (Real.log_nonneg (by linarith)) (by positivity)
    norm_num at this ⊢
    linarith
  have e49 : 27 * ((a:ℝ) + b) * Real.log (a + b + 6) = 27 * ((a + b) * Real.log (a + b + 6)) := by ring
  have e22 : ∀ x : ℝ, 22 * x * Real.log (x + 6) = 22 * (x * Real.log (x + 6)) := fun x => by ring
  rw [e22] at bla blb blc ⊢
  rw [e22 (b:ℝ), e49]
  unfold logBeta
  clear e49 e22
  have hM0 : 0 ≤ ((a:ℝ) + b) * Real.log (a + b + 6) := (abs_nonneg _).trans hC
  generalize ((a:ℝ) + b) * Real.log (a + b + 6) = M at *
  generalize ((rnd f (a + b) : ℚ) : ℝ) * Real.log ((rnd f (a + b) : ℚ) + 6) = S at *
  generalize (a:ℝ) * Real.log (a + 6) = P at *
  generalize (b:ℝ) * Real.log (b + 6) = Q at *
  have hMu : M * uro f ≤ M * (1 / 10 ^ 7) := mul_le_mul_of_nonneg_left hu7 hM0
  have hMu0 : 0 ≤ M * uro f := by positivity
  have h1 := mul_le_mul_of_nonneg_right hσ hu.le
  have h2 := mul_le_mul_of_nonneg_right hadd hu.le
  have blc' : |(lc:ℝ) - Real.log (Real.Gamma (a + b))| ≤ (111 + 22 * S) * uro f + 18 / 10 ^ 15 + 1001 / 1000 * M * uro f := by
    have h3 := abs_add_le ((lc:ℝ) - Real.log (Real.Gamma (rnd f (a + b) : ℚ))) (Real.log (Real.Gamma (rnd f (a + b) : ℚ)) - Real.log (Real.Gamma (a + b)))
    rw [sub_add_sub_cancel] at h3
    exact h3.trans (add_le_add blc hΓ)
  have he : |(la:ℝ) - Real.log (Real.Gamma a)| + |(lb:ℝ) - Real.log (Real.Gamma b)| + |(lc:ℝ) - Real.log (Real.Gamma (a + b))| ≤
      (111 + 22 * P) * us + (111 + 22 * Q) * ut + (111 + 2301 / 100 * M) * uro f + 54 / 10 ^ 15 := by
    norm_num only at *
    linarith
  have hP := mul_le_mul_of_nonneg_left hus ((abs_nonneg _).trans hA)
  have hQ := mul_le_mul_of_nonneg_left hut ((abs_nonneg _).trans hB)
  have heM : (111 + 22 * P) * us + (111 + 22 * Q) * ut + (111 + 2301 / 100 * M) * uro f + 54 / 10 ^ 15 ≤ 1 / 1000 * (1 + M) := by
    norm_num only at *
    linarith
  have eS := rnd_all_real f (la + lb)
  have eT := rnd_all_real f (rnd f (la + lb) - lc)
  push_cast at eS eT
  obtain ⟨k1, k2, k3⟩ := comb_err hu hu7 he (by linarith) (by linarith) heM eS eT
  have k4 : |(la:ℝ) + lb| ≤ 2 ^ 127 := by
    have h3 := abs_add_le (la:ℝ) lb
    have h4 := abs_sub_abs_le_abs_sub (la:ℝ) (Real.log (Real.Gamma a))
    have h5 := abs_sub_abs_le_abs_sub (lb:ℝ) (Real.log (Real.Gamma b))
    have h6 := abs_nonneg ((lc:ℝ) - Real.log (Real.Gamma (a + b)))
    norm_num only at *
    linarith
  have n1 : overflows f (rnd f (la + lb)) = false := nov (by
    have : ((|la + lb| : ℚ) : ℝ) ≤ ((2 ^ 127 : ℚ) : ℝ) := by push_cast; exact k4
    exact_mod_cast this)
  have n2 : overflows f (rnd f (rnd f (la + lb) - lc)) = false := nov (by
    have : ((|rnd f (la + lb) - lc| : ℚ) : ℝ) ≤ ((2 ^ 127 : ℚ) : ℝ) := by
      push_cast
      refine (abs_sub _ _).trans ?_
      norm_num at hM ⊢
      linarith
    exact_mod_cast this)
  obtain ⟨w, ew⟩ := ((is_fin (f := f) la wa).add (is_fin lb wb) n1).sub (is_fin lc wc) n2
  refine ⟨lc, wc, _, w, es ▸ elc, ew, k1.trans (by linarith)⟩

/-- C85: two floating arguments of any types.  `lgamma(a)` and `lgamma(b)` keep the precision of their own argument:
the error has a term with `2^p` of the narrower type. -/
theorem C85_mixed_accuracy (s t : FTy) (a b : ℚ) (za zb : Bool) (hxa : Valid (fin a za : FV s.fmt)) (hxb : Valid (fin b zb : FV t.fmt))
    (a1 : 1 / 2 ≤ a) (a2 : a ≤ 2 ^ 88) (b1 : 1 / 2 ≤ b) (b2 : b ≤ 2 ^ 88) :
    ∃ r w, lbetaA (.flt s (fin a za)) (.flt t (fin b zb)) = .ok (fin r w) ∧
      |(r:ℝ) - Real.log (∫ x in (0:ℝ)..1, x ^ ((a:ℝ) - 1) * (1 - x) ^ ((b:ℝ) - 1))| ≤
        (111 + 22 * a * Real.log (a + 6)) / 2 ^ s.prec + (111 + 22 * b * Real.log (b + 6)) / 2 ^ t.prec +
        (112 + 27 * (a + b) * Real.log (a + b + 6)) / 2 ^ (s.wider t).prec + 54 / 10 ^ 15 := by
  obtain ⟨⟨p1, p2, p3⟩, ⟨p4, p5, p6⟩, -⟩ := wider_spec s t
  have ca : FV.cast (s.wider t).fmt (fin a za : FV s.fmt) = fin a za := cast_widen rfl rfl p1 p2 p3 hxa
  have cb : FV.cast (s.wider t).fmt (fin b zb : FV t.fmt) = fin b zb := cast_widen rfl rfl p4 p5 p6 hxb
  have hxa' : Valid (fin a za : FV (s.wider t).fmt) := ca ▸ valid_cast _
  have hxb' : Valid (fin b zb : FV (s.wider t).fmt) := cb ▸ valid_cast _
  have hug : ∀ ty : FTy, (1:ℝ) / 2 ^ ty.prec ≤ 1 / 10 ^ 7 := fun ty => by cases ty <;> norm_num [FTy.prec]
  have hus := hug s
  have hut := hug t
  obtain ⟨la, wa, ela, bla⟩ := C72_accuracy (f := s.fmt) rfl a za hxa a1 (a2.trans (by norm_num))
  obtain ⟨lb, wb, elb, blb⟩ := C72_accuracy (f := t.fmt) rfl b zb hxb b1 (b2.trans (by norm_num))
  have va : Valid (fin la wa : FV s.fmt) := valid_lgamma ela
  have vb : Valid (fin lb wb : FV t.fmt) := valid_lgamma elb
  have cla : FV.cast (s.wider t).fmt (fin la wa : FV s.fmt) = fin la wa := cast_widen rfl rfl p1 p2 p3 va
  have clb : FV.cast (s.wider t).fmt (fin lb wb : FV t.fmt) = fin lb wb := cast_widen rfl rfl p4 p5 p6 vb
  have unf : ∀ lc wc, lgamma (fin a za + fin b zb : FV (s.wider t).fmt) = .ok (fin lc wc) →
      lbetaA (.flt s (fin a za)) (.flt t (fin b zb)) = .ok ((fin la wa + fin lb wb : FV (s.wider t).fmt) - fin lc wc) := by
    intro lc wc h
    have ea : lgammaA (.flt s (fin a za)) = .ok (fin la wa) := by
      show lgamma (FV.cast s.fmt (fin a za : FV s.fmt)) = _
      have c : FV.cast s.fmt (fin a za : FV s.fmt) = fin a za := cast_self' hxa
      rw [c]; exact ela
    have eb : lgammaA (.flt t (fin b zb)) = .ok (fin lb wb) := by
      show lgamma (FV.cast t.fmt (fin b zb : FV t.fmt)) = _
      have c : FV.cast t.fmt (fin b zb : FV t.fmt) = fin b zb := cast_self' hxb
      rw [c]; exact elb
    have es : addA (.flt s (fin a za)) (.flt t (fin b zb)) = .ok (.flt (s.wider t) (fin a za + fin b zb)) := by
      show Except.ok _ = _
      rw [ca, cb]
    have ec : lgammaA (.flt (s.wider t) (fin a za + fin b zb)) = .ok (fin lc wc) := by
      show lgamma (FV.cast (s.wider t).fmt (fin a za + fin b zb : FV (s.wider t).fmt)) = _
      have c : FV.cast (s.wider t).fmt (fin a za + fin b zb : FV (s.wider t).fmt) = fin a za + fin b zb := cast_self' (valid_add _ _)
      rw [c]; exact h
    have vc : Valid (fin lc wc : FV (s.wider t).fmt) := valid_lgamma h
    unfold lbetaA
    rw [ea, eb, es]
    simp only [bind, Except.bind, ec]
    congr 1
    show FV.cast (s.wider t).fmt (FV.cast (s.wider t).fmt (fin la wa : FV s.fmt) + FV.cast (s.wider t).fmt (fin lb wb : FV t.fmt) -
      FV.cast (s.wider t).fmt (fin lc wc : FV (s.wider t).fmt)) = _
    have c : FV.cast (s.wider t).fmt (fin lc wc : FV (s.wider t).fmt) = fin lc wc := cast_self' vc
    rw [cla, clb, c]
    exact cast_self' (valid_sub _ _)
  rw [div_eq_mul_one_div] at bla blb
  obtain ⟨lc, wc, r, w, elc, er, hr⟩ := lbeta_tail (f := (s.wider t).fmt) rfl a b za zb hxa' hxb' a1 a2 b1 b2 la lb wa wb _ _ hus hut bla blb
  refine ⟨r, w, (unf lc wc elc).trans (congrArg Except.ok er), ?_⟩
  rw [uro_eq] at hr
  rw [logBeta_eq (by have : 0 < a := by linarith
                     exact_mod_cast this) (by have : 0 < b := by linarith
                                              exact_mod_cast this)] at hr
  rw [div_eq_mul_one_div _ ((2:ℝ) ^ s.prec), div_eq_mul_one_div _ ((2:ℝ) ^ t.prec), div_eq_mul_one_div _ ((2:ℝ) ^ (s.wider t).prec)]
  exact hr

/-- C85: the loss is real.  `lbeta(2.5f, 2.5)` has type `double` but differs from `lbeta(2.5, 2.5)` in the 25th bit. -/
theorem C85_mixed_loss : ∃ r r' : ℚ, ∃ z z' : Bool,
    lbetaA (.flt .float (fin (5 / 2) false)) (.flt .double (fin (5 / 2) false)) = .ok (fin r z : FV binary64) ∧
    lbeta (fin (5 / 2) false : FV binary64) (fin (5 / 2) false) = .ok (fin r' z') ∧ 1 / 2 ^ 30 < |r - r'| := by
  have aux : ∀ x y : Res (FV binary64), (match x, y with
      | .ok (fin r _), .ok (fin r' _) => decide (1 / 2 ^ 30 < |r - r'|)
      | _, _ => false) = true →
      ∃ r r' : ℚ, ∃ z z' : Bool, x = .ok (fin r z) ∧ y = .ok (fin r' z') ∧ 1 / 2 ^ 30 < |r - r'| := by
    intro x y h
    rcases x with _ | (_ | _ | _) <;> rcases y with _ | (_ | _ | _) <;> simp at h
    exact ⟨_, _, _, _, rfl, rfl, by simpa using h⟩
  exact aux _ _ (by decide +kernel)

end Gcem.Props
