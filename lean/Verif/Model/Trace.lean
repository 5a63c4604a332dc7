import Verif.Model.BgCall
import Verif.Model.Redshift

/-!
# Background calls inside `jit`, `grad` and `vmap`

JAX runs a Python function on tracers.  Inside `jit` every operation is staged, so everything computed there, constants
included, is a tracer of that trace; inside `grad`, `jvp` or `vmap` an operation yields a tracer only if one of its
operands is one.  A tracer used after its trace has ended raises `UnexpectedTracerError`.  The Python side effects of
`background.py` (filling `cosmo._workspace`, lines 235-236, 484-485, 544-545) happen while tracing, so what is stored
may be a tracer.

Simplifications: every transformed call is a first call (JAX does not run Python again for a function already
compiled for these shapes); an exception is caught at the call that raises it.
-/

namespace JaxCosmo

/-- Kinds of traces: staging (`jit`), or following data (`grad`, `jvp`, `vmap`). -/
inductive TraceKind
  | stage
  | data
  deriving DecidableEq

/-- A trace in progress. -/
structure Frame where
  id : ℕ
  kind : TraceKind

/-- Which trace an array belongs to; `none` for a concrete one. -/
abbrev Tag := Option ℕ

/-- `UnexpectedTracerError`, or an exception of the library. -/
inductive TraceErr
  | unexpectedTracer
  | py (e : PyErr)

open Classical in
/-- Tag of the result of an operation on arrays with tags `ins`, the traces `live` (innermost first) being in progress:
the innermost trace that stages everything or that an operand belongs to. -/
noncomputable def opTag (live : List Frame) (ins : List Tag) : Except TraceErr Tag :=
  if ∃ t ∈ ins, ∃ i, t = some i ∧ i ∉ live.map Frame.id then .error .unexpectedTracer
  else .ok ((live.find? fun f => decide (f.kind = .stage ∨ some f.id ∈ ins)).map Frame.id)

/-- A cosmology with the tags of its parameters and of its two tables (meaningless while a table is absent). -/
structure TCosmo where
  obj : Cosmology
  par : Tag
  chi : Tag
  growth : Tag

/-- Which table a call reads: `background.py:222`, `:263`, `:461`, `:505`, `:534`; the growth rate in the `gamma`
parametrisation (`:551-578`) is computed from the parameters. -/
inductive Cell
  | chi
  | growth
  | params

/-- Table read by a call on an object. -/
def BgCall.cell (o : Cosmology) : BgCall → Cell
  | .chi _ | .ofChi _ | .transverse _ | .angular _ => .chi
  | .growth _ => .growth
  | .rate _ => if o.gammaGrowth then .params else .growth

/-- Arrays read by a call besides its argument and its table: `transverse_comoving_distance` and
`angular_diameter_distance` read `cosmo.k` and `cosmo.sqrtk` (`background.py:325-344`). -/
def BgCall.extra (o : TCosmo) : BgCall → List Tag
  | .transverse _ | .angular _ => [o.par]
  | _ => []

/-- A call under the traces `live`, the argument having tag `arg`: a missing table is computed from the parameters and
stored with the tag it has, then the table is read. -/
noncomputable def callT (live : List Frame) (o : TCosmo) (c : BgCall) (arg : Tag) :
    TCosmo × Except TraceErr (Except PyErr (List ℝ)) :=
  let r := c.run o.obj
  match c.cell o.obj with
  | .params =>
    match opTag live [o.par, arg] with
    | .error e => (o, .error e)
    | .ok _ => ({ o with obj := r.1 }, .ok r.2)
  | .chi =>
    match o.obj.wsChi with
    | some _ =>
      match opTag live (o.chi :: arg :: c.extra o) with
      | .error e => (o, .error e)
      | .ok _ => ({ o with obj := r.1 }, .ok r.2)
    | none =>
      match opTag live [o.par] with
      | .error e => (o, .error e)
      | .ok t =>
        let o' := { o with obj := r.1, chi := t }
        match opTag live (t :: arg :: c.extra o) with
        | .error e => (o', .error e)
        | .ok _ => (o', .ok r.2)
  | .growth =>
    match o.obj.wsGrowth with
    | some _ =>
      match opTag live [o.growth, arg] with
      | .error e => (o, .error e)
      | .ok _ => ({ o with obj := r.1 }, .ok r.2)
    | none =>
      match opTag live [o.par] with
      | .error e => (o, .error e)
      | .ok t =>
        let o' := { o with obj := r.1, growth := t }
        match opTag live [t, arg] with
        | .error e => (o', .error e)
        | .ok _ => (o', .ok r.2)

/-- What a program does with one cosmology: call a background function, the argument belonging to the `d`-th trace
around the call or (`none`) concrete; call a transformed function that closes over the cosmology; or call one that
receives it as an argument (then `tree_flatten` and `tree_unflatten` make a new object, `core.py:99-142`). -/
inductive Prog
  | call (c : BgCall) (d : Option ℕ)
  | closure (k : TraceKind) (body : List Prog)
  | argument (k : TraceKind) (body : List Prog)

/-- Outcome of one background call. -/
abbrev Outcome := Except TraceErr (Except PyErr (List ℝ))

mutual

/-- Execution: `next` is the identity of the next trace.  Returned: the next identity, the object afterwards, and the
outcomes of the background calls in order. -/
noncomputable def Prog.exec (next : ℕ) (live : List Frame) (o : TCosmo) : Prog → ℕ × TCosmo × List Outcome
  | .call c d =>
    let r := callT live o c ((d.bind fun d => live[d]?).map Frame.id)
    (next, r.1, [r.2])
  | .closure k body => Prog.execAll (next + 1) (⟨next, k⟩ :: live) o body
  | .argument k body =>
    match o.obj.treeFlatten with
    | flat =>
      match Cosmology.treeUnflatten flat.gammaGrowth flat.children with
      | .error e => (next, o, [.error (.py e)])
      | .ok copy =>
        let r := Prog.execAll (next + 1) (⟨next, k⟩ :: live)
          { obj := copy, par := some next, chi := none, growth := none } body
        (r.1, o, r.2.2)

/-- One after the other. -/
noncomputable def Prog.execAll (next : ℕ) (live : List Frame) (o : TCosmo) : List Prog → ℕ × TCosmo × List Outcome
  | [] => (next, o, [])
  | p :: ps =>
    let r := Prog.exec next live o p
    let s := Prog.execAll r.1 live r.2.1 ps
    (s.1, s.2.1, r.2.2 ++ s.2.2)

end

/-- A new concrete object. -/
def TCosmo.new (p : Params) : TCosmo := { obj := Cosmology.init p, par := none, chi := none, growth := none }

/-- A redshift distribution with the tags of its parameters and of its attribute `_norm`. -/
structure TNz where
  obj : NzObj
  par : Tag
  norm : Tag

/-- A new concrete distribution. -/
def TNz.new (nz : Nz) : TNz := { obj := NzObj.new nz, par := none, norm := none }

/-- `redshift.py:28-32` under the traces `live`, the redshift having tag `arg`: the norm is computed from the
parameters and stored with the tag it has. -/
noncomputable def TNz.call (live : List Frame) (o : TNz) (z : ℝ) (arg : Tag) : TNz × Except TraceErr ℝ :=
  let r := o.obj.call z
  match o.obj.norm with
  | some _ =>
    match opTag live [o.par, arg, o.norm] with
    | .error e => (o, .error e)
    | .ok _ => ({ o with obj := r.1 }, .ok r.2)
  | none =>
    match opTag live [o.par] with
    | .error e => (o, .error e)
    | .ok t =>
      match opTag live [o.par, arg, t] with
      | .error e => ({ o with obj := r.1, norm := t }, .error e)
      | .ok _ => ({ o with obj := r.1, norm := t }, .ok r.2)

end JaxCosmo
