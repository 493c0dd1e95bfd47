import Mathlib.Data.Rat.Floor
import Mathlib.Algebra.Order.Floor.Semiring
import Mathlib.Tactic.IntervalCases

/-!
# Error bounds for the continued fraction of the incomplete beta function

A recursion over rational numbers, evaluated in the kernel. It does not refer to the model; `Verif.Props.IbetaCf` shows
what its values bound.
-/

namespace Gcem.Props

/-! ### the recursion -/

/-- `k n`, after evaluation of `n` -/
def ibForce {α : Type} (n : ℕ) (k : ℕ → α) : α := match n with | 0 => k 0 | m + 1 => k (m + 1)

theorem ibForce_eq {α : Type} (n : ℕ) (k : ℕ → α) : ibForce n k = k n := by cases n <;> rfl

/-- the cell `c` is `c/4 ≤ a ≤ (c + ibW c)/4` -/
def ibW (c : ℕ) : ℕ := if c < 6 then 1 else 2
def ibRho (c k : ℕ) : ℚ := if k = 1 then ((c:ℚ) + ibW c + 44) / (c + ibW c + 48) else ((c:ℚ) + 4 * k + 2) / (c + 10)
/-- bound for `z` -/
def ibZ (c : ℕ) : ℚ := 100001 / 100000 * (((c:ℚ) + ibW c + 4) / (c + ibW c + 10))
/-- bound for the `j`-th coefficient if it is negative -/
def ibN (c j : ℕ) : ℚ :=
  if j % 2 = 0 then 100001 / 100000 * ((((c:ℚ) + ibW c + 4) * (c + ibW c + 2 * j)) / ((c + ibW c + 4 * j) * (c + ibW c + 4 * j + 4)) * ibRho c (j / 2))
  else ibZ c * ((((j:ℚ) + 1) * j * 4) / ((c + 4 * j) * (c + 4 * j + 4)))
/-- bound for the `j`-th coefficient if it is positive -/
def ibP (c j : ℕ) : ℚ :=
  if j % 2 = 0 ∨ 19 ≤ j then 0 else ibZ c * ((((j:ℚ) + 1) * (19 - j) * 4) / ((c + 4 * j) * (c + 4 * j + 4)))
/-- bound for the quotient of the `j`-th coefficient and the exact tail, if it is negative -/
def ibH (c j : ℕ) : ℚ :=
  if j % 2 = 0 then 100001 / 100000 * (((c:ℚ) + ibW c + 4) / (c + ibW c + 4 * j) * ibRho c (j / 2))
  else ibZ c * (2 * j / (c + 4 * j))

/-- lower bound, in units of `2^-16` -/
def ibL (c j L : ℕ) : ℕ :=
  ⌊(if j = 1 then max (1 - ibN c j / (L / 65536)) (((c:ℚ) + 4) / (c + 8)) else 1 - ibN c j / (L / 65536)) * 65536⌋₊
/-- amplification of a relative error -/
def ibA (c j L L' : ℕ) : ℚ := max (1 / (L' / 65536 : ℚ) - 1) (ibP c j / (L / 65536 + ibP c j))
/-- relative error, in units of `u/64` -/
def ibE (c j L L' E : ℕ) : ℕ := ⌈(101 / 100 * ibA c j L L' * (E / 64 + 113 / 10) + 24 / 10) * 64⌉₊
/-- relative difference of the two sequences, in units of `2^-170` -/
def ibR (c j L L' R : ℕ) : ℕ := ⌈max (ibN c j) (ibP c j) / (L / 65536 * (L' / 65536)) * R⌉₊
/-- relative error of the product, in units of `u/64` -/
def ibT (E' T : ℕ) : ℕ := T + 2 * E' + E' / 32 + 132
def ibK (c j L' : ℕ) : ℚ := max 1 (ibH c (j + 1) / (L' / 65536 - ibH c (j + 1)))
def ibCheck (c j L' E' T' : ℕ) : Bool :=
  decide (5462 ≤ L' ∧ E' ≤ 64000 ∧ ibN c j ≤ 2 ∧ ibP c j ≤ 2 ∧ ibH c (j + 1) ≤ 44 * (L' / 65536 - ibH c (j + 1)) ∧ T' / 64 + 11 / 10 * (ibK c j L' * (2 * E' / 64 + 2)) ≤ 9400)

def ibLoop (c : ℕ) : ℕ → ℕ → ℕ → ℕ → ℕ → Bool
  | left, L, E, T, R =>
    ibForce (ibL c (205 - left) L) fun L' => ibForce (ibE c (205 - left) L L' E) fun E' => ibForce (ibT E' T) fun T' =>
      ibForce (ibR c (205 - left) L L' R) fun R' =>
        ibCheck c (205 - left) L' E' T' && match left with
          | 0 => decide (R' ≤ 2 ^ 100)
          | left' + 1 => ibLoop c left' L' E' T' R'

def ibL0 (c : ℕ) : ℕ := ⌊((8:ℚ) / (c + ibW c + 48) - 1 / 100000) * 65536⌋₊
def ibE0 (c : ℕ) : ℕ := ⌈(101 / 100 * (1 / (ibL0 c / 65536 : ℚ) - 1) * (113 / 10) + 24 / 10) * 64⌉₊
def ibR0 (c : ℕ) : ℕ := ⌈(1 / (ibL0 c / 65536 : ℚ) - 1) * 2 ^ 170⌉₊
def ibAll (c : ℕ) : Bool := ibForce (ibL0 c) fun L => ibForce (ibE0 c) fun E => ibForce (ibR0 c) fun R => ibLoop c 204 L E E R

theorem ib_all_2 : ibAll 2 = true := by decide +kernel
theorem ib_all_3 : ibAll 3 = true := by decide +kernel
theorem ib_all_4 : ibAll 4 = true := by decide +kernel
theorem ib_all_5 : ibAll 5 = true := by decide +kernel
theorem ib_all_6 : ibAll 6 = true := by decide +kernel
theorem ib_all_8 : ibAll 8 = true := by decide +kernel
theorem ib_all_10 : ibAll 10 = true := by decide +kernel
theorem ib_all_12 : ibAll 12 = true := by decide +kernel
theorem ib_all_14 : ibAll 14 = true := by decide +kernel
theorem ib_all_16 : ibAll 16 = true := by decide +kernel
theorem ib_all_18 : ibAll 18 = true := by decide +kernel
theorem ib_all_20 : ibAll 20 = true := by decide +kernel
theorem ib_all_22 : ibAll 22 = true := by decide +kernel
theorem ib_all_24 : ibAll 24 = true := by decide +kernel
theorem ib_all_26 : ibAll 26 = true := by decide +kernel
theorem ib_all_28 : ibAll 28 = true := by decide +kernel
theorem ib_all_30 : ibAll 30 = true := by decide +kernel
theorem ib_all_32 : ibAll 32 = true := by decide +kernel
theorem ib_all_34 : ibAll 34 = true := by decide +kernel
theorem ib_all_36 : ibAll 36 = true := by decide +kernel
theorem ib_all_38 : ibAll 38 = true := by decide +kernel

theorem ib_all : ∀ c < 40, 2 ≤ c → (c < 6 ∨ c % 2 = 0) → ibAll c = true := by
  intro c h1 h2 h3
  interval_cases c
  · exact ib_all_2
  · exact ib_all_3
  · exact ib_all_4
  · exact ib_all_5
  · exact ib_all_6
  · omega
  · exact ib_all_8
  · omega
  · exact ib_all_10
  · omega
  · exact ib_all_12
  · omega
  · exact ib_all_14
  · omega
  · exact ib_all_16
  · omega
  · exact ib_all_18
  · omega
  · exact ib_all_20
  · omega
  · exact ib_all_22
  · omega
  · exact ib_all_24
  · omega
  · exact ib_all_26
  · omega
  · exact ib_all_28
  · omega
  · exact ib_all_30
  · omega
  · exact ib_all_32
  · omega
  · exact ib_all_34
  · omega
  · exact ib_all_36
  · omega
  · exact ib_all_38
  · omega

end Gcem.Props
