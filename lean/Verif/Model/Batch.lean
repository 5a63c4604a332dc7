import Verif.Model.Power

/-!
# Arrays of any shape: broadcasting, `vmap`, `squeeze`, and `power.py` on arrays

`Model/Power.lean` gives `linear_matter_power` and `halofit` at one wavenumber and one scale factor.  Here the same
functions act on arrays, with the shape manipulations of the code.  An array is a shape with a function of indices;
shapes and indices are written **last axis first**, so that broadcasting aligns heads.

Simplifications: the transfer function is elementwise (`transfer.py` only uses elementwise operations); inside `sigmasqr`
the quadrature is the scalar one of `Model/Power.lean`.  JAX raises `TypeError` for operands of equal rank that do not broadcast, `ValueError` if the
ranks differ.
-/

namespace JaxCosmo

/-- An array: shape and entries, last axis first. -/
structure Nd (α : Type*) where
  shape : List ℕ
  val : List ℕ → α

/-- Broadcasting of one axis. -/
def bdim (m n : ℕ) : Option ℕ :=
  if m = n then some m else if m = 1 then some n else if n = 1 then some m else none

/-- Broadcasting of shapes. -/
def bshape : List ℕ → List ℕ → Option (List ℕ)
  | [], t => some t
  | s, [] => some s
  | m :: s, n :: t => (bdim m n).bind fun d => (bshape s t).map (d :: ·)

/-- Entry of an array of shape `s` that stands at an index of the broadcast array. -/
def bix : List ℕ → List ℕ → List ℕ
  | [], _ => []
  | m :: s, i => (if m = 1 then 0 else i.headD 0) :: bix s i.tail

/-- Position of a flat index (C order; last axis first: the head runs fastest). -/
def unravel : List ℕ → ℕ → List ℕ
  | [], _ => []
  | m :: s, i => (i % m) :: unravel s (i / m)

/-- Index in the unsqueezed array. -/
def unsqueeze : List ℕ → List ℕ → List ℕ
  | [], _ => []
  | m :: s, i => if m = 1 then 0 :: unsqueeze s i else i.headD 0 :: unsqueeze s i.tail

namespace Nd
variable {α β γ : Type*}

/-- A 0-d array. -/
def scalar (x : α) : Nd α := { shape := [], val := fun _ => x }

/-- A 1-d array of length `n`. -/
def vec (n : ℕ) (f : ℕ → α) : Nd α := { shape := [n], val := fun i => f (i.headD 0) }

/-- An elementwise function. -/
def map (f : α → β) (x : Nd α) : Nd β := { shape := x.shape, val := fun i => f (x.val i) }

/-- An elementwise operation on two arrays. -/
def map2 (f : α → β → γ) (x : Nd α) (y : Nd β) : Except PyErr (Nd γ) :=
  match bshape x.shape y.shape with
  | some s => .ok { shape := s, val := fun i => f (x.val (bix x.shape i)) (y.val (bix y.shape i)) }
  | none => if x.shape.length = y.shape.length then .error .typeError else .error .valueError

/-- `np.atleast_1d`. -/
def atleast1d (x : Nd α) : Nd α :=
  match x.shape with
  | [] => { shape := [1], val := fun _ => x.val [] }
  | _ => x

/-- `np.squeeze`. -/
def squeeze (x : Nd α) : Nd α :=
  { shape := x.shape.filter (· ≠ 1), val := fun i => x.val (unsqueeze x.shape i) }

/-- Number of entries. -/
def size (x : Nd α) : ℕ := x.shape.prod

/-- `np.outer`: both operands are flattened. -/
def outer (x y : Nd ℝ) : Nd ℝ :=
  { shape := [y.size, x.size]
    val := fun i => x.val (unravel x.shape (i.tail.headD 0)) * y.val (unravel y.shape (i.headD 0)) }

/-- `np.expand_dims(x, axis=1)` of a 1-d array. -/
def expand1 (x : Nd α) : Nd α := { shape := 1 :: x.shape, val := fun i => x.val i.tail }

/-- `np.expand_dims(x, 0)`. -/
def expand0 (x : Nd α) : Nd α := { shape := x.shape ++ [1], val := fun i => x.val i.dropLast }

/-- `np.stack([x, y], axis=1)` of 2-d arrays of the same shape. -/
def stack1 (x y : Nd α) : Nd α :=
  { shape := [x.shape.headD 0, 2, x.shape.tail.headD 0]
    val := fun i => (if i.tail.headD 0 = 0 then x else y).val [i.headD 0, i.tail.tail.headD 0] }

/-- `x[j]`: entry `j` along the first axis. -/
def at0 (x : Nd α) (j : ℕ) : Nd α := { shape := x.shape.dropLast, val := fun i => x.val (i ++ [j]) }

/-- `jax.vmap(f)(x)` over the first axis; the shapes, and with them the exceptions, are those of every slice. -/
def vmap (f : Nd α → Except PyErr (Nd ℝ)) (x : Nd α) : Except PyErr (Nd ℝ) :=
  match x.shape.getLast? with
  | none => .error .valueError
  | some r =>
    match f (x.at0 0) with
    | .error e => .error e
    | .ok y => .ok
      { shape := y.shape ++ [r]
        val := fun i =>
          match f (x.at0 (i.getLastD 0)) with
          | .ok z => z.val i.dropLast
          | .error _ => 0 }

end Nd

/-- An argument that is a scalar or a 1-d array of length `n`. -/
inductive NdArg
  | scalar (x : ℝ)
  | vec (n : ℕ) (f : ℕ → ℝ)

/-- The argument as an array. -/
def NdArg.toNd : NdArg → Nd ℝ
  | .scalar x => .scalar x
  | .vec n f => .vec n f

/-- `scipy/interpolate.py:16-40`: the body of `interp`, before `vmap`, on an array of queries: `argmin` without an axis
takes the minimum over all entries. -/
noncomputable def interpBody (n : ℕ) (xp fp : ℕ → ℝ) (x : Nd ℝ) : Except PyErr (Nd ℝ) :=
  match Nd.map2 (fun u v => (u - v) ^ 2) x (.vec n xp) with
  | .error e => .error e
  | .ok d =>
    let ind0 : ℕ := argmin d.size fun i => d.val (unravel d.shape i)
    let ind : ℤ := iclip ind0 1 ((n : ℤ) - 2)
    let xi := xp (ix n ind)
    .ok (x.map fun x =>
      let s := sgn (clip x (xp (ix n 1)) (xp (ix n (-2))) - xi)
      let nb : ℤ := ind + copysign1 s
      let a := (fp (ix n nb) - fp (ix n ind)) / (xp (ix n nb) - xp (ix n ind))
      let b := fp (ix n ind) - a * xp (ix n ind)
      a * x + b)

/-- `scipy/interpolate.py:15-40` `interp` on an array: `vmap` over its first axis. -/
noncomputable def interpNd (n : ℕ) (xp fp : ℕ → ℝ) (x : Nd ℝ) : Except PyErr (Nd ℝ) := x.vmap (interpBody n xp fp)

/-- `background.py:371-398` `growth_factor` on an array (`:488`, `:548`), on a new object or one with its table. -/
noncomputable def growthNd (p : Params) (a : Nd ℝ) : Except PyErr (Nd ℝ) :=
  (interpNd (growthTable p).n (growthTable p).a (growthTable p).g a).map (Nd.map fun x => clip x 0 1)

/-- `power.py:22-54` `linear_matter_power` on arrays. -/
noncomputable def linearNd (p : Params) (T : ℝ → ℝ) (k a : Nd ℝ) : Except PyErr (Nd ℝ) := do
  let k := k.atleast1d
  let a := a.atleast1d
  let g ← growthNd p a
  let t := k.map T
  let pknorm := p.sigma8 ^ 2 / sigmasqr p 8 T
  let pk ← Nd.map2 (fun u t => u * t ^ 2) (k.map (primordialMatterPower p)) t
  let pk ← Nd.map2 (fun u g => u * g ^ 2) pk g
  let pk := pk.map (· * pknorm)
  .ok pk.squeeze

/-- `scipy/integrate.py:163-200` `simps` for an array-valued integrand called with the array of nodes: the sum runs over
the first axis, which has `N + 1` entries (the only case that occurs). -/
noncomputable def simpsNd (f : Nd ℝ → Except PyErr (Nd ℝ)) (a b : ℝ) (N : ℕ) : Except PyErr (Nd ℝ) :=
  match f (.vec (N + 1) (linspace a b (N + 1))) with
  | .error e => .error e
  | .ok y =>
    if y.shape.getLast? = some (N + 1) then
      .ok { shape := y.shape.dropLast
            val := fun i => (b - a) / (N : ℝ) / 3 * ∑ j ∈ Finset.range (N / 2),
              (y.val (i ++ [2 * j]) + 4 * y.val (i ++ [2 * j + 1]) + y.val (i ++ [2 * j + 2])) }
    else .error .typeError

namespace Halofit

/-- `power.py:99-110` `int_sigma` on the array of nodes, for a slice `a` of the scale factors. -/
noncomputable def intSigmaNd (p : Params) (T : ℝ → ℝ) (a logk : Nd ℝ) : Except PyErr (Nd ℝ) := do
  let k := logk.map Real.exp
  let r := Nd.vec 256 fun i => Real.exp (logr i)
  let y := Nd.outer k r
  let pk ← linearNd p T k (.scalar 1)
  let g ← growthNd p a.atleast1d
  let pk3 ← Nd.map2 (fun pk k => pk * k ^ 3) pk k
  let u ← Nd.map2 (fun u y => u * Real.exp (-(y ^ 2)) / (2 * Real.pi ^ 2)) pk3.expand1 y
  Nd.map2 (fun u g => u * g ^ 2) u g

/-- `power.py:97-116`: `R_nl` before `vmap`. -/
noncomputable def R_nlBody (p : Params) (T : ℝ → ℝ) (a : Nd ℝ) : Except PyErr (Nd ℝ) := do
  let sigma ← simpsNd (intSigmaNd p T a) (Real.log 1e-4) (Real.log 1e4) 256
  let root ← interpNd 256 (fun i => sigma.val [i]) logr (Nd.scalar 1).atleast1d
  .ok (root.map fun x => clipLo (Real.exp x) 1e-6)

/-- `power.py:119` `k_nl`. -/
noncomputable def k_nlNd (p : Params) (T : ℝ → ℝ) (a : Nd ℝ) : Except PyErr (Nd ℝ) := do
  let R ← a.atleast1d.vmap (R_nlBody p T)
  .ok (R.squeeze.map (1 / ·))

/-- `power.py:122-135` `integrand`. -/
noncomputable def integrandNd (p : Params) (T : ℝ → ℝ) (k_nl a logk : Nd ℝ) : Except PyErr (Nd ℝ) := do
  let k := logk.map Real.exp
  let y := Nd.outer k (k_nl.map (1 / ·))
  let pk ← linearNd p T k (.scalar 1)
  let g ← growthNd p a.atleast1d
  let pk3 ← Nd.map2 (fun pk k => pk * k ^ 3) pk k
  let u ← Nd.map2 (fun u y => u * Real.exp (-(y ^ 2))) pk3.expand1 y
  let res ← Nd.map2 (fun u g => u * g ^ 2 / (2 * Real.pi ^ 2)) u g.expand0
  let d1 ← Nd.map2 (fun res y => 2 * res * y ^ 2) res y
  let d2 ← Nd.map2 (fun res y => 4 * res * (y ^ 2 - y ^ 4)) res y
  .ok (Nd.stack1 d1 d2)

end Halofit

/-- `power.py:87-142` `_halofit_parameters`. -/
noncomputable def halofitParametersNd (p : Params) (T : ℝ → ℝ) (a : Nd ℝ) :
    Except PyErr (Nd ℝ × Nd ℝ × Nd ℝ) := do
  let k_nl ← Halofit.k_nlNd p T a
  let res ← simpsNd (Halofit.integrandNd p T k_nl a) (Real.log 1e-4) (Real.log 1e4) 256
  let n := (res.at0 0).map (· - 3)
  let C ← Nd.map2 (fun r0 r1 => r0 ^ 2 + r1) (res.at0 0) (res.at0 1)
  .ok (k_nl, n, C)

/-- `power.py:251-267`: the assembly on arrays. -/
noncomputable def assembleNd (k pklin knl : Nd ℝ) (c : Nd (Halofit.Coeffs × (ℝ × ℝ × ℝ))) : Except PyErr (Nd ℝ) := do
  let f := fun x : ℝ => x / 4 + x ^ 2 / 8
  let d2l ← Nd.map2 (fun k pklin => k ^ 3 * pklin / (2 * Real.pi ^ 2)) k pklin
  let y ← Nd.map2 (· / ·) k knl
  let q ← Nd.map2 (fun d2l c => d2l * ((1 + d2l) ^ c.1.beta_n / (1 + c.1.alpha_n * d2l))) d2l c
  let d2q ← Nd.map2 (fun q y => q * Real.exp (-f y)) q y
  let d2hprime ← Nd.map2 (fun c y => c.1.a_n * y ^ (3 * c.2.1)
    / (1 + c.1.b_n * y ^ c.2.2.1 + (c.1.c_n * c.2.2.2 * y) ^ (3 - c.1.gamma_n))) c y
  let v ← Nd.map2 (fun c y => 1 + c.1.mu_n / y + c.1.nu_n / y ^ 2) c y
  let d2h ← Nd.map2 (· / ·) d2hprime v
  let d2nl ← Nd.map2 (· + ·) d2q d2h
  let pk_nl ← Nd.map2 (fun k d => 2 * Real.pi ^ 2 / k ^ 3 * d) k d2nl
  .ok pk_nl.squeeze

/-- `power.py:145-267` `halofit` on arrays. -/
noncomputable def halofitNd (p : Params) (k a : Nd ℝ) (T : ℝ → ℝ)
    (prescription : String := "takahashi2012") : Except PyErr (Nd ℝ) := do
  let a := a.atleast1d
  let pklin ← linearNd p T k a
  let (k_nl, n, C) ← halofitParametersNd p T a
  let bg := a.map fun a => (Omega_m_a p a, Omega_de_a p a, w p a)
  let nC ← Nd.map2 Prod.mk n C
  let c ← if prescription = "smith2003" then
      Nd.map2 (fun nC bg => (Halofit.smith2003 nC.1 nC.2, Halofit.fSmith bg.1 (bg.2.1 / (1 - bg.1)))) nC bg
    else if prescription = "takahashi2012" then
      Nd.map2 (fun nC bg => (Halofit.takahashi2012 nC.1 nC.2 bg.2.1 bg.2.2, Halofit.fTakahashi bg.1)) nC bg
    else .error .notImplementedError
  assembleNd k pklin k_nl c

end JaxCosmo
