import Verif.IntModel
import Mathlib.Tactic.Linarith
import Mathlib.Tactic.Ring
import Mathlib.Tactic.NormNum
import Mathlib.Tactic.SplitIfs
import Mathlib.Data.Int.ModEq
import Mathlib.Data.Nat.Choose.Basic
import Mathlib.Data.Int.GCD

/-! Helper lemmas about the integer model. -/

namespace Gcem
namespace IntTy

theorem lo_nonpos (t : IntTy) : t.lo ≤ 0 := by
  rcases t with ⟨w, s⟩; cases w <;> cases s <;> decide

theorem hi_ge (t : IntTy) : 2 ^ 31 - 1 ≤ t.hi := by
  rcases t with ⟨w, s⟩; cases w <;> cases s <;> decide

theorem hi_eq (t : IntTy) : t.hi = t.lo + t.mod - 1 := by
  rcases t with ⟨w, s⟩; cases w <;> cases s <;> decide

theorem mod_pos (t : IntTy) : 0 < t.mod := by
  rcases t with ⟨w, s⟩; cases w <;> cases s <;> decide

theorem lo_signed {t : IntTy} (h : t.signed = true) : t.lo = -t.hi - 1 := by
  rcases t with ⟨w, s⟩; cases w <;> cases s <;> first | decide | simp at h

theorem lo_unsigned {t : IntTy} (h : t.signed = false) : t.lo = 0 := by
  unfold lo; simp [h]

theorem conv_of_has {t : IntTy} {n : ℤ} (h : t.has n) : t.conv n = n := by
  have := t.hi_eq
  unfold has at h
  unfold conv
  rw [Int.emod_eq_of_lt (by omega) (by omega)]; omega

theorem has_conv (t : IntTy) (n : ℤ) : t.has (t.conv n) := by
  have := t.hi_eq
  have hm := t.mod_pos
  unfold has conv
  have h1 := Int.emod_nonneg (n - t.lo) hm.ne'
  have h2 := Int.emod_lt_of_pos (n - t.lo) hm
  omega

theorem conv_modEq (t : IntTy) (n : ℤ) : t.conv n ≡ n [ZMOD t.mod] := by
  unfold conv
  have : (n - t.lo) % t.mod ≡ n - t.lo [ZMOD t.mod] := Int.mod_modEq _ _
  have h2 := this.add_right t.lo
  simpa using h2

theorem conv_eq_of_modEq {t : IntTy} {a b : ℤ} (h : a ≡ b [ZMOD t.mod]) : t.conv a = t.conv b := by
  unfold conv
  have : a - t.lo ≡ b - t.lo [ZMOD t.mod] := h.sub_right _
  rw [this]

theorem conv_unsigned {t : IntTy} (h : t.signed = false) (n : ℤ) : t.conv n = n % t.mod := by
  unfold conv; rw [lo_unsigned h]; simp

theorem has_zero (t : IntTy) : t.has 0 := by
  have := t.lo_nonpos; have := t.hi_ge; unfold has; omega

theorem has_one (t : IntTy) : t.has 1 := by
  have := t.lo_nonpos; have := t.hi_ge; unfold has; omega

theorem arith_of_has {t : IntTy} {n : ℤ} (h : t.has n) : t.arith n = .ok n := by
  unfold arith
  cases t.signed <;> simp [h, conv_of_has h]

theorem arith_signed_not {t : IntTy} {n : ℤ} (hs : t.signed = true) (h : ¬ t.has n) :
    t.arith n = .error .intOverflow := by
  unfold arith; simp [h, hs]

theorem arith_unsigned {t : IntTy} {n : ℤ} (hs : t.signed = false) :
    t.arith n = .ok (t.conv n) := by
  unfold arith; simp [hs]

theorem common_self (t : IntTy) : common t t = t := by
  rcases t with ⟨w, s⟩; cases w <;> cases s <;> decide

theorem common_hi_left (s t : IntTy) : s.hi ≤ (common s t).hi := by
  rcases t with ⟨w, b⟩; rcases s with ⟨w', b'⟩
  cases w <;> cases b <;> cases w' <;> cases b' <;> decide

theorem common_hi_right (s t : IntTy) : t.hi ≤ (common s t).hi := by
  rcases t with ⟨w, b⟩; rcases s with ⟨w', b'⟩
  cases w <;> cases b <;> cases w' <;> cases b' <;> decide

theorem has_common_left {s t : IntTy} {n : ℤ} (h0 : 0 ≤ n) (h : s.has n) : (common s t).has n := by
  have h1 := common_hi_left s t
  have h2 := (common s t).lo_nonpos
  unfold has at *; omega

theorem has_common_right {s t : IntTy} {n : ℤ} (h0 : 0 ≤ n) (h : t.has n) : (common s t).has n := by
  have h1 := common_hi_right s t
  have h2 := (common s t).lo_nonpos
  unfold has at *; omega

end IntTy

open IntTy

theorem absI_ok {t : IntTy} {x : ℤ} (h : t.has x) (hm : ¬ (t.signed = true ∧ x = t.lo)) :
    absI t x = .ok |x| := by
  unfold absI
  split
  · next h0 => simp [h0]
  · split
    · next h0 =>
      have hs : t.signed = true := by
        by_contra hs
        have := lo_unsigned (t := t) (by simpa using hs)
        unfold has at h; omega
      have hl := lo_signed hs
      rw [arith_of_has]
      · rw [abs_of_neg h0]
      · have : x ≠ t.lo := fun hx => hm ⟨hs, hx⟩
        unfold has at *; omega
    · rw [abs_of_nonneg (by omega)]

theorem absI_ub {t : IntTy} (hs : t.signed = true) : absI t t.lo = .error .intOverflow := by
  have hl := lo_signed hs
  have hh := t.hi_ge
  unfold absI
  rw [if_neg (by omega), if_pos (by omega), arith_signed_not hs]
  unfold has; omega

theorem has_abs {t : IntTy} {x : ℤ} (h : t.has x) (hm : ¬ (t.signed = true ∧ x = t.lo)) :
    t.has |x| := by
  rcases le_or_gt 0 x with h0 | h0
  · rwa [abs_of_nonneg h0]
  · rw [abs_of_neg h0]
    have hs : t.signed = true := by
      by_contra hs
      have := lo_unsigned (t := t) (by simpa using hs)
      unfold has at h; omega
    have hl := lo_signed hs
    have : x ≠ t.lo := fun hx => hm ⟨hs, hx⟩
    unfold has at *; omega

theorem gcd_recur_spec (t : IntTy) (a b : ℤ) (ha : 0 ≤ a) (hb : 0 ≤ b) :
    gcd_recur t a b = .ok (Int.gcd a b) := by
  obtain ⟨n, hn⟩ : ∃ n : ℕ, b.toNat = n := ⟨_, rfl⟩
  induction n using Nat.strong_induction_on generalizing a b with
  | _ n ih =>
    unfold gcd_recur
    split
    · next h => subst h; simp [abs_of_nonneg ha]
    · next h =>
      rw [if_neg (by omega)]
      have h1 : 0 ≤ a.tmod b := Int.tmod_nonneg _ ha
      have h2 : a.tmod b < b := Int.tmod_lt_of_pos _ (by omega)
      rw [ih (a.tmod b).toNat (by omega) b (a.tmod b) hb h1 rfl]
      congr 2
      rw [Int.tmod_eq_emod_of_nonneg ha, Int.gcd_comm, Int.gcd_emod, Int.gcd_comm]

theorem gcd_value {s t : IntTy} {a b : ℤ} (ha : s.has a) (hb : t.has b)
    (hma : ¬ (s.signed = true ∧ a = s.lo)) (hmb : ¬ (t.signed = true ∧ b = t.lo)) :
    gcd s t a b = .ok (Int.gcd a b) := by
  unfold gcd gcd_type_check gcd_int_check
  rw [absI_ok ha hma, absI_ok hb hmb]
  show gcd_recur _ _ _ = _
  rw [conv_of_has (has_common_left (abs_nonneg a) (has_abs ha hma)),
    conv_of_has (has_common_right (abs_nonneg b) (has_abs hb hmb)),
    gcd_recur_spec _ _ _ (abs_nonneg a) (abs_nonneg b)]
  congr 2
  simp [Int.gcd, Int.natAbs_abs]

theorem gcd_has {t : IntTy} {a b : ℤ} (ha : t.has a) (hb : t.has b)
    (hma : ¬ (t.signed = true ∧ a = t.lo)) (hmb : ¬ (t.signed = true ∧ b = t.lo)) :
    t.has (Int.gcd a b) := by
  have h1 := has_abs ha hma
  have h2 := has_abs hb hmb
  have hl := t.lo_nonpos
  by_cases h0 : a = 0
  · subst h0; simpa using h2
  · have : (Int.gcd a b : ℤ) ≤ |a| := by
      have := Int.gcd_le_natAbs_left b h0
      rw [Int.abs_eq_natAbs]
      exact_mod_cast this
    unfold has at *
    omega

end Gcem
