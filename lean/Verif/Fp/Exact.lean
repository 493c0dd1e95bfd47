import Verif.Fp.Calc

/-!
# The exact formats

With `f.exact = true` nothing is rounded and nothing overflows: the model computes in exact rational
arithmetic.  These lemmas are used for statements about truncation error alone.
-/

namespace Gcem
open FV
variable {f g : Fmt} {v w : FV f} {a b : ℚ}

theorem nov_exact (hf : f.exact = true) (q : ℚ) : overflows f q = false := by simp [overflows, hf]

theorem Is.addx (hf : f.exact = true) (hv : Is v a) (hw : Is w b) : Is (v + w) (a + b) := by
  have := hv.add hw (nov_exact hf _); rwa [rnd_exact hf] at this
theorem Is.subx (hf : f.exact = true) (hv : Is v a) (hw : Is w b) : Is (v - w) (a - b) := by
  have := hv.sub hw (nov_exact hf _); rwa [rnd_exact hf] at this
theorem Is.mulx (hf : f.exact = true) (hv : Is v a) (hw : Is w b) : Is (v * w) (a * b) := by
  have := hv.mul hw (nov_exact hf _); rwa [rnd_exact hf] at this
theorem Is.divx (hf : f.exact = true) (hv : Is v a) (hw : Is w b) (hb : b ≠ 0) : Is (v / w) (a / b) := by
  have := hv.div hw hb (nov_exact hf _); rwa [rnd_exact hf] at this
theorem Is.castx (hg : g.exact = true) (hv : Is v a) : Is (FV.cast g v) a := by
  have := hv.cast (g := g) (nov_exact hg _); rwa [rnd_exact hg] at this
theorem is_ix (hf : f.exact = true) (n : ℤ) : Is (i n : FV f) n := by
  have := is_mk (f := f) (q := n) (zs := false) (nov_exact hf _); rwa [rnd_exact hf] at this
theorem dbl_exact (hf : f.exact = true) : f.dbl.exact = true := hf
theorem ldbl_exact (hf : f.exact = true) : f.ldbl.exact = true := hf
theorem is_dx (hf : f.exact = true) (q : ℚ) : Is (d q : FV f) q := by
  unfold d
  rw [rnd_exact (dbl_exact hf)]
  have := is_mk (f := f) (q := q) (zs := false) (nov_exact hf _)
  rwa [rnd_exact hf] at this
theorem is_Lx (hf : f.exact = true) (q : ℚ) : Is (L q : FV f) q := by
  unfold L
  rw [rnd_exact (ldbl_exact hf)]
  have := is_mk (f := f) (q := q) (zs := false) (nov_exact hf _)
  rwa [rnd_exact hf] at this

theorem Is.same (hv : Is v a) (hw : Is w a) : v ≃ w := by
  obtain ⟨z, rfl⟩ := hv; obtain ⟨z', rfl⟩ := hw; rfl

end Gcem
