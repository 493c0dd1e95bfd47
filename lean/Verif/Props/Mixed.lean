import Verif.Model.Mixed
import Verif.Props.Fmod
import Verif.Props.Rounding
import Verif.Fp.Calc

/-!
# C84: integral and mixed arguments of the multi-argument functions
-/

namespace Gcem.Props

open FV Gcem.IntTy

/-! ## conversions -/

theorem rep_widen {f g : Fmt} (hf : f.exact = false) (hp : f.prec ≤ g.prec) (he : g.emin ≤ f.emin) {q : ℚ} (h : Rep f q) :
    Rep g q := by
  by_cases hq : q = 0
  · subst hq; exact Rep.zero
  obtain ⟨m, hm, hb⟩ := rep_scaled hf hq h
  rw [hm]
  refine rep_of_scaled (hb.le.trans (pow_le_pow_right₀ (by norm_num) hp)) (he.trans (fexp_ge f q))

theorem cast_widen {f g : Fmt} (hf : f.exact = false) (_ : g.exact = false) (hp : f.prec ≤ g.prec) (he : g.emin ≤ f.emin)
    (hm : f.emax ≤ g.emax) {q : ℚ} {z : Bool} (h : Valid (fin q z : FV f)) : FV.cast g (fin q z : FV f) = fin q z := by
  have ho : overflows g q = false := by
    have h1 := overflows_false_iff.1 h.2.1
    rw [hf] at h1
    rw [overflows_false_iff]
    right
    exact lt_of_lt_of_le (h1.resolve_left (by simp)) (pow2_le hm)
  show mk g q z = _
  rw [mk_of_rep (rep_widen hf hp he h.1) ho]
  by_cases hz : q = 0
  · simp [hz]
  · cases z
    · simp
    · exact absurd (h.2.2 rfl) hz

/-- the type of a call with two floating arguments holds both of them -/
theorem wider_spec (s t : FTy) : (s.prec ≤ (s.wider t).prec ∧ (s.wider t).emin ≤ s.emin ∧ s.emax ≤ (s.wider t).emax) ∧
    (t.prec ≤ (s.wider t).prec ∧ (s.wider t).emin ≤ t.emin ∧ t.emax ≤ (s.wider t).emax) ∧ (s.wider t = s ∨ s.wider t = t) := by
  cases s <;> cases t <;> decide

theorem cast_wider_left {s : FTy} (t : FTy) {v : FV s.fmt} (h : Valid v) :
    (FV.cast (s.wider t).fmt v) = match v with | .nan => .nan | .inf b => .inf b | .fin q z => .fin q z := by
  cases v with
  | nan => rfl
  | inf b => rfl
  | fin q z => exact cast_widen rfl rfl (wider_spec s t).1.1 (wider_spec s t).1.2.1 (wider_spec s t).1.2.2 h

theorem cast_self' {s : FTy} {v : FV s.fmt} (h : Valid v) : FV.cast s.fmt v = v := by
  cases v with
  | nan => rfl
  | inf b => rfl
  | fin q z => exact cast_widen rfl rfl le_rfl le_rfl le_rfl h

/-- every integer of the platform is in the range of every floating type -/
theorem i_rounds (ty : FTy) {n : ℤ} (h : |n| ≤ 2 ^ 64) : (i n : FV ty.fmt) = fin (rnd ty.fmt n) false := by
  have ho : overflows ty.fmt (rnd ty.fmt (n:ℚ)) = false := by
    rw [overflows_false_iff]; right
    refine lt_of_le_of_lt (abs_rnd_le_of_rep (r := pow2 64) (rep_pow2 (by cases ty <;> decide)) ?_) (pow2_lt (by cases ty <;> decide))
    rw [← Int.cast_abs, show (64:ℤ) = ((64:ℕ):ℤ) from rfl, pow2_nat]
    exact_mod_cast h
  show mk _ _ _ = _
  rw [mk_fin ho]
  congr 1
  by_cases hn : n = 0
  · simp [hn]
  · have : rnd ty.fmt (n:ℚ) ≠ 0 := by
      refine rnd_ne_zero_of_rep (r := 1) (by simpa using rep_int (f := ty.fmt) (n := 1) (by cases ty <;> decide)) one_pos ?_
      rw [← Int.cast_abs]; exact_mod_cast Int.one_le_abs hn
    simp [this]

theorem has_abs {t : IntTy} {n : ℤ} (h : t.has n) : |n| ≤ 2 ^ 64 := by
  obtain ⟨h1, h2⟩ := h
  rw [abs_le]
  rcases t with ⟨⟨⟩, ⟨⟩⟩ <;> simp [lo, hi, Width.bits] at h1 h2 <;> constructor <;> omega

/-! ## C84 -/

/-- C84: the type in which a two-argument call is computed and returned.  An integer next to a `float` does *not*
raise the computation to `double`, even for a 64-bit integer; two integers give `double`. -/
theorem C84_call_type (s t : IntTy) (a b : FTy) (n m : ℤ) (v : FV a.fmt) (w : FV b.fmt) :
    callTy (.int s n) (.int t m) = .double ∧ callTy (.int s n) (.flt b w) = b ∧ callTy (.flt a v) (.int t m) = a ∧
    (callTy (.flt a v) (.flt b w) = a ∨ callTy (.flt a v) (.flt b w) = b) ∧
    a.prec ≤ (callTy (.flt a v) (.flt b w)).prec ∧ b.prec ≤ (callTy (.flt a v) (.flt b w)).prec :=
  ⟨rfl, rfl, rfl, (wider_spec a b).2.2, (wider_spec a b).1.1, (wider_spec a b).2.1.1⟩

example : callTy (.int .llint 5) (.flt .float (fin 1 false)) = .float := rfl

/-- C84: converting a floating argument to the type of the call never changes its value (nor the sign of zero). -/
theorem C84_float_exact (a b : FTy) (q : ℚ) (z : Bool) (w : FV b.fmt) (h : Valid (fin q z : FV a.fmt)) :
    (Arg.flt a (fin q z)).to (callTy (.flt a (fin q z)) (.flt b w)) = fin q z ∧
    (Arg.flt a (fin q z)).to (callTy (.flt b w) (.flt a (fin q z))) = fin q z := by
  obtain ⟨h1, -, -⟩ := wider_spec a b
  obtain ⟨-, h2, -⟩ := wider_spec b a
  exact ⟨cast_widen rfl rfl h1.1 h1.2.1 h1.2.2 h, cast_widen rfl rfl h2.1 h2.2.1 h2.2.2 h⟩

example : Valid (fin (1 / 8) false : FV FTy.float.fmt) := by decide +kernel

/-- C84: converting an integer argument rounds it to the type of the call; it is unchanged up to `2^p`. -/
theorem C84_int_rounds (t : IntTy) (n : ℤ) (h : t.has n) (ty : FTy) :
    (Arg.int t n).to ty = fin (rnd ty.fmt n) false ∧ (|n| ≤ 2 ^ ty.prec → (Arg.int t n).to ty = fin n false) := by
  refine ⟨i_rounds ty (has_abs h), fun hn => ?_⟩
  exact i_eq hn

/-- `int` and `unsigned` arguments are never changed by a call computed in `double` or `long double`. -/
theorem C84_int32_exact (s : Bool) (n : ℤ) (h : IntTy.has ⟨.w32, s⟩ n) (ty : FTy) (hty : ty ≠ .float) :
    (Arg.int ⟨.w32, s⟩ n).to ty = fin n false := by
  refine (C84_int_rounds _ n h ty).2 ?_
  have : |n| ≤ 2 ^ 53 := by
    obtain ⟨h1, h2⟩ := h
    rw [abs_le]
    cases s <;> simp [lo, hi, Width.bits] at h1 h2 <;> constructor <;> omega
  refine this.trans ?_
  cases ty
  · exact absurd rfl hty
  · exact le_rfl
  · norm_num [FTy.prec]

/-- C84: the calls depend on an integer argument only through its rounding, so that two integers which round to the
same floating value cannot be told apart. -/
theorem C84_int_collapse (t : IntTy) (n n' : ℤ) (hn : t.has n) (hn' : t.has n') (ty : FTy) (w : FV ty.fmt)
    (h : rnd ty.fmt n = rnd ty.fmt n') :
    fmodA (.int t n) (.flt ty w) = fmodA (.int t n') (.flt ty w) ∧
    hypotA (.int t n) (.flt ty w) = hypotA (.int t n') (.flt ty w) ∧
    atan2A (.int t n) (.flt ty w) = atan2A (.int t n') (.flt ty w) ∧
    log_binomial_coefA (.int t n) (.flt ty w) = log_binomial_coefA (.int t n') (.flt ty w) ∧
    incomplete_gammaA (.int t n) (.flt ty w) = incomplete_gammaA (.int t n') (.flt ty w) ∧
    incomplete_gamma_invA (.int t n) (.flt ty w) = incomplete_gamma_invA (.int t n') (.flt ty w) ∧
    maxA (.int t n) (.flt ty w) = maxA (.int t n') (.flt ty w) ∧ minA (.int t n) (.flt ty w) = minA (.int t n') (.flt ty w) := by
  have e : (Arg.int t n).to ty = (Arg.int t n').to ty := by
    rw [(C84_int_rounds t n hn ty).1, (C84_int_rounds t n' hn' ty).1, h]
  have e' : ((Arg.int t n).to (callTy (.int t n) (.flt ty w)) : FV ty.fmt) = (Arg.int t n').to ty := e
  refine ⟨?_, ?_, ?_, ?_, ?_, ?_, ?_, ?_⟩
  · exact congrArg (fun x => fmod x ((Arg.flt ty w).to ty)) e
  · exact congrArg (fun x => hypot x ((Arg.flt ty w).to ty)) e
  · exact congrArg (fun x => Except.ok (atan2 x ((Arg.flt ty w).to ty))) e
  · exact congrArg (fun x => log_binomial_coef x ((Arg.flt ty w).to ty)) e
  · exact congrArg (fun x => incomplete_gamma x ((Arg.flt ty w).to ty)) e
  · exact congrArg (fun x => incomplete_gamma_inv x ((Arg.flt ty w).to ty)) e
  · exact congrArg (fun x => fmax x ((Arg.flt ty w).to ty)) e
  · exact congrArg (fun x => fmin x ((Arg.flt ty w).to ty)) e

example : IntTy.int.has 16777217 ∧ IntTy.int.has 16777216 ∧ rnd FTy.float.fmt (16777217:ℤ) = rnd FTy.float.fmt (16777216:ℤ) := by
  decide +kernel

/-- C84: `max(n, y)` with an integer and a `float` can be smaller than `n`, `min(n, y)` larger: the value returned is
the rounded `n`. -/
theorem C84_max_min_not_bounds :
    maxA (.int .int 16777217) (.flt .float (fin 1 false)) = fin 16777216 false ∧
    minA (.int .int 16777219) (.flt .float (fin (2 ^ 30) false)) = fin 16777220 false := by
  decide +kernel

/-- C84: `fmod` of two integers below `2^53` in magnitude (every `int` and `unsigned`) is the exact remainder. -/
theorem C84_fmod_int (s t : IntTy) (a b : ℤ) (hb : b ≠ 0) (ha : |a| < 2 ^ 53) (hb2 : |b| < 2 ^ 53) :
    ∃ z, fmodA (.int s a) (.int t b) = .ok (fin (Int.tmod a b : ℤ) z) := by
  obtain ⟨z, h⟩ := C22_fmod_integers (f := FTy.double.fmt) rfl a b false false hb ha hb2
  refine ⟨z, ?_⟩
  have e1 : (i a : FV FTy.double.fmt) = fin a false := i_eq ha.le
  have e2 : (i b : FV FTy.double.fmt) = fin b false := i_eq hb2.le
  show fmod (i a : FV FTy.double.fmt) (i b) = _
  rw [e1, e2, h]
  rfl

example : (Int.tmod (-7) 3 : ℤ) = -1 := by decide

/-- beyond `2^p` every value is even and half of it is a value too -/
theorem half_rep {f : Fmt} (hf : f.exact = false) {q : ℚ} (h : Rep f q) (hb : 2 ^ f.prec ≤ |q|) :
    ∃ k : ℤ, q = 2 * k ∧ Rep f (k:ℚ) := by
  have hq : q ≠ 0 := by rintro rfl; have : (0:ℚ) < 2 ^ f.prec := by positivity
                        simp at hb; linarith
  obtain ⟨m, hm, hmb⟩ := rep_scaled hf hq h
  have h1 : ((f.prec : ℕ) : ℤ) ≤ ilog2 q := by
    rw [le_ilog2_iff hq, pow2_nat]; exact hb
  have h2 : 0 ≤ fexp f q - 1 := by unfold fexp; omega
  obtain ⟨k, -, hk⟩ := pow2_mult h2
  have h3 : pow2 1 = 2 := by decide +kernel
  have h4 : q = 2 * (m * pow2 (fexp f q - 1)) := by
    have : pow2 (fexp f q) = 2 * pow2 (fexp f q - 1) := by
      rw [← h3, ← pow2_add]; congr 1; ring
    rw [mul_left_comm, ← this]; exact hm
  have h5 : Rep f ((m:ℚ) * pow2 (fexp f q - 1)) := rep_of_scaled hmb.le (by have := emin_neg f; omega)
  refine ⟨m * k, ?_, ?_⟩
  · rw [h4, hk, pow2_zero]; push_cast; ring
  · have : (((m * k : ℤ)) : ℚ) = m * pow2 (fexp f q - 1) := by rw [hk, pow2_zero]; push_cast; ring
    rw [this]; exact h5

theorem fmod_two_big {f : Fmt} (hf : f.exact = false) {q : ℚ} (h : Valid (fin q false : FV f)) (hb : 2 ^ f.prec ≤ |q|) :
    fmod (fin q false : FV f) (fin 2 false) = .ok (fin 0 false) := by
  obtain ⟨k, hk, hr⟩ := half_rep hf h.1 hb
  have ho : overflows f (k:ℚ) = false := by
    refine overflows_of_abs_le ?_ h.2.1 |>.trans rfl
    rw [hk, abs_mul]; have := abs_nonneg (k:ℚ); norm_num; linarith
  have hk0 : (k:ℚ) ≠ 0 := by
    intro h0; rw [hk, h0] at hb; have : (0:ℚ) < 2 ^ f.prec := by positivity
    norm_num at hb; linarith
  have hv : Valid (fin (k:ℚ) false : FV f) := ⟨hr, ho, by simp⟩
  unfold fmod fmod_check
  simp only [any_nan, all_finite, is_nan_fin, is_finite_fin, Bool.or_self, Bool.false_eq_true,
    Bool.and_self, Bool.not_true, if_false]
  have e1 : (fin q false : FV f) / fin 2 false = fin k false := by
    rw [fin_div (by norm_num), hk, show (2:ℚ) * k / 2 = k by ring, mk_of_rep hr ho]
    simp [hk0]
  rw [e1]
  unfold trunc
  rw [trunc_check_eq hf hv (normal_int k), ratTrunc_int]
  simp only [bind, Except.bind]
  rw [fin_mul_rep (by rw [mul_comm, ← hk]; exact h.1) (by rw [mul_comm, ← hk]; exact h.2.1), mul_comm, ← hk, fin_sub, sub_self, mk_zero]
  rfl

/-- C84: from `2^p` on (`2^53` for two integers, `2^24` next to a `float`) `fmod(n, 2)` is zero for every integer,
odd ones included. -/
theorem C84_fmod_two (s t : IntTy) (n : ℤ) (h : s.has n) :
    (2 ^ 53 ≤ |n| → fmodA (.int s n) (.int t 2) = .ok (fin 0 false)) ∧
    (2 ^ 24 ≤ |n| → fmodA (.int s n) (.flt .float (fin 2 false)) = .ok (fin 0 false)) := by
  have key : ∀ ty : FTy, 2 ^ ty.prec ≤ |n| → fmod ((Arg.int s n).to ty) (fin 2 false) = .ok (fin 0 false) := by
    intro ty hn
    have e := i_rounds ty (has_abs h)
    have hv := valid_i (f := ty.fmt) n
    rw [e] at hv
    show fmod (i n : FV ty.fmt) _ = _
    rw [e]
    refine fmod_two_big rfl hv ?_
    rw [abs_rnd]
    refine le_rnd_of_rep ?_ ?_
    · have := rep_pow2_nat (f := ty.fmt) (n := ty.prec)
      exact this
    · rw [← Int.cast_abs]; exact_mod_cast hn
  constructor
  · intro hn
    have e2 : (i 2 : FV FTy.double.fmt) = fin 2 false := i_two
    show fmod ((Arg.int s n).to .double) (i 2 : FV FTy.double.fmt) = _
    rw [e2]
    exact key .double hn
  · intro hn
    have e2 : FV.cast FTy.float.fmt (fin 2 false : FV FTy.float.fmt) = fin 2 false := by decide +kernel
    show fmod ((Arg.int s n).to .float) (FV.cast FTy.float.fmt (fin 2 false : FV FTy.float.fmt)) = _
    rw [e2]
    exact key .float hn

example : IntTy.llint.has (2 ^ 53 + 1) ∧ (2 ^ 53 + 1 : ℤ).tmod 2 = 1 := by decide

end Gcem.Props
