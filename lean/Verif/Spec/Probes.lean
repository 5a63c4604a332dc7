import Mathlib.Analysis.SpecialFunctions.Pow.Real

/-! # Specification: weak lensing kernels

`chi : ℝ → ℝ` is the comoving distance as a function of redshift. -/

namespace JaxCosmo.Spec

/-- Composite Simpson value of `f` over `[a, b]` with `2 m` intervals. -/
noncomputable def simpson (f : ℝ → ℝ) (a b : ℝ) (m : ℕ) : ℝ :=
  (b - a) / (2 * m) / 3 * ∑ j ∈ Finset.range m,
    (f (a + (2 * j) * ((b - a) / (2 * m))) + 4 * f (a + (2 * j + 1) * ((b - a) / (2 * m)))
      + f (a + (2 * j + 2) * ((b - a) / (2 * m))))

/-- Geometric weight of a source at `z'` seen by a lens at `z`, `(χ' - χ)₊ / χ'`, with the
denominator kept above 1 Mpc/h. -/
noncomputable def lensWeight (chi : ℝ → ℝ) (z z' : ℝ) : ℝ := max (chi z' - chi z) 0 / max (chi z') 1

/-- Spin-2 correction to the Limber approximation. -/
noncomputable def spinFactor (l : ℝ) : ℝ := √((l - 1) * l * (l + 1) * (l + 2)) / (l + 1 / 2) ^ 2

/-- Kernel of a source bin given its mean weight `q`: `3/2 Ωm H0²/c · (1+z) χ(z) · q`. -/
noncomputable def lensKernel (Om H0 c : ℝ) (chi : ℝ → ℝ) (z l q : ℝ) : ℝ :=
  3 / 2 * Om * H0 ^ 2 / c * spinFactor l * ((1 + z) * chi z * q)

end JaxCosmo.Spec
