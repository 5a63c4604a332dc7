import Verif.Model.Probes

/-! # Specification: angular spectra and their covariance -/

namespace JaxCosmo.Spec

/-- Number of pairs `i ≤ j < N`. -/
def pairCount (N : ℕ) : ℕ := N * (N + 1) / 2

/-- Position of the unordered pair `{i, j}` when the upper triangle of an `N × N` matrix is read
row by row. -/
def pairPos (N i j : ℕ) : ℕ :=
  min i j * N - min i j * (min i j - 1) / 2 + (max i j - min i j)

/-- The tracers of a list of probes, numbered in order: the probe and the bin within the probe. -/
def tracers (probes : List Probe) : List (Probe × ℕ) :=
  probes.flatMap fun pr => (List.range pr.bins.length).map fun t => (pr, t)

/-- The symmetric matrix whose upper triangle is stored row by row in `col`. -/
noncomputable def symMat (N : ℕ) (col : List ℝ) : Matrix (Fin N) (Fin N) ℝ :=
  fun i j => col.getD (pairPos N i j) 0

/-- Wick's theorem for the covariance of the spectra `(i, j)` and `(m, n)` of Gaussian fields. -/
def wick {ι : Type*} (C : ι → ι → ℝ) (i j m n : ι) : ℝ := C i m * C j n + C i n * C j m

/-- Width of the multipole bin around entry `l` of a grid: half the distance between the neighbours,
or the distance to the only neighbour at the ends. -/
noncomputable def bandwidth (ells : List ℝ) (l : ℕ) : ℝ :=
  if l = 0 then ells.getD 1 0 - ells.getD 0 0
  else if l + 1 = ells.length then ells.getD l 0 - ells.getD (l - 1) 0
  else (ells.getD (l + 1) 0 - ells.getD (l - 1) 0) / 2

/-- Number of modes in the bin: `(2 ℓ + 1) Δℓ f_sky`. -/
noncomputable def modeCount (ells : List ℝ) (f_sky : ℝ) (l : ℕ) : ℝ :=
  (2 * ells.getD l 0 + 1) * bandwidth ells l * f_sky

/-- Column `l` of an array of spectra. -/
noncomputable def column (cl : List (List ℝ)) (l : ℕ) : List ℝ := cl.map fun row => row.getD l 0

/-- Matrix of observed spectra (signal plus noise) at multipole number `l`. -/
noncomputable def obsMat (N : ℕ) (signal noise : List (List ℝ)) (l : ℕ) :
    Matrix (Fin N) (Fin N) ℝ :=
  symMat N (column signal l) + symMat N (column noise l)

/-- An array of `r` rows and `c` columns. -/
def Rect (r c : ℕ) (cl : List (List ℝ)) : Prop := cl.length = r ∧ ∀ row ∈ cl, row.length = c

end JaxCosmo.Spec
