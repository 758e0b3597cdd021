import Mathlib.Data.List.Basic

/-!
# Model of the calls a step makes and of how their arguments are bound

`SuperLink.step` (superlink.py 4015–4150) calls methods with keyword arguments. Which method is called is
decided by the class of the object: `nSuperLink` (nsuperlink.py) when numba can be imported, the base class
otherwise (hydraulics.py 1–9). The bodies of the methods are parameters here; what is modelled is the order of
the calls, the arguments they pass, the signatures of the two classes and Python's binding of keyword
arguments (`TypeError` for an unexpected keyword or a missing required parameter).
-/

namespace Pipedream.Binding

/-- Parameter names occurring in the signatures and calls. -/
inductive Param
  | H_bc | _Q_0j | _Q_0Ik | u | _dt | dt | first_time | first_iter | implicit | area | subcritical_only
  | supercritical_only
  deriving DecidableEq

/-- Methods called by `step`. -/
inductive Meth
  | saveState | linkGeometry | upstreamGeometry | downstreamGeometry | storageAreas | storageVolumes
  | nodeVelocities | orificeGeometry | flowRegime | linkCoeffs | nodeCoeffs | forwardRecurrence
  | backwardRecurrence | upstreamHead | downstreamHead | flowCoeffs | orificeCoeffs | weirCoeffs | pumpCoeffs
  | matrixEquations | solveBanded | solveSparse | solveFlows | solveOrifices | solveWeirs | solvePumps
  | solveDepths | exitConditions | criticalDepth | exitHydraulics | internalsBackwards | internalsForwards
  | internalsNnls | internalsLsq
  deriving DecidableEq

/-- A signature: required parameters, then those with defaults (`self` left out). -/
structure Sig where
  required : List Param := []
  optional : List Param := []

/-- Binding of keyword arguments: every keyword is a parameter and every required parameter is given. -/
def binds (s : Sig) (kw : List Param) : Bool :=
  kw.all (fun a => a ∈ s.required ∨ a ∈ s.optional) && s.required.all (fun r => r ∈ kw)

/-- Signatures of the base class — superlink.py 1722, 1780, 1839, 1898, 1934, 1965, 1998, 2040, 2070, 2109,
2161, 2233, 2304, 2348, 2393, 2481, 2548, 2616, 2672, 2880, 2923, 2965, 2987, 3059, 3106, 3138, 3199, 3307, 3415,
3472, 3536, 3551, 3604, 3906. -/
def sigBase : Meth → Sig
  | .upstreamGeometry | .downstreamGeometry => { optional := [.area] }
  | .orificeGeometry | .orificeCoeffs | .weirCoeffs | .pumpCoeffs | .solveWeirs | .solvePumps =>
    { optional := [.u] }
  | .linkCoeffs => { optional := [._dt, .first_iter] }
  | .nodeCoeffs => { optional := [._Q_0Ik, ._dt, .first_iter] }
  | .matrixEquations => { optional := [.H_bc, ._Q_0j, .u, ._dt, .implicit, .first_time] }
  | .solveBanded | .solveSparse => { optional := [.u, .implicit] }
  | .solveOrifices => { required := [.dt], optional := [.u] }
  | .internalsBackwards => { optional := [.subcritical_only] }
  | .internalsForwards => { optional := [.supercritical_only] }
  | _ => {}

/-- Signatures seen by an `nSuperLink`: those it overrides — nsuperlink.py 482, 535, 587, 638, 666, 699, 725,
762, 796, 824, 851, 906, 959, 1037, 1068, 1100, 1133, 1297, 1343, 1385, 1424, 1460, 1534, 1564, 1591, 1615 —
and the inherited ones. -/
def sigNumba : Meth → Sig
  | .upstreamHead | .downstreamHead => { optional := [._dt] }
  | .internalsForwards => { optional := [.subcritical_only] }
  | m => sigBase m

/-- `self._method`. -/
inductive Internals
  | b | f | nnls | lsq | other
  deriving DecidableEq

/-- What the sequence of calls depends on. -/
structure Cfg where
  orifices : Bool
  weirs : Bool
  pumps : Bool
  inertialDamping : Bool
  exitHydraulics : Bool
  banded : Bool
  method : Internals

/-- `[x] if b else []`. -/
def opt {α : Type*} (b : Bool) (x : List α) : List α := if b then x else []

/-- The calls of `_setup_step` — superlink.py 4015–4051 (with `implicit`; without it the method raises
`NotImplementedError` after the first call). -/
def setupCalls (c : Cfg) (first_iter : Bool) : List (Meth × List Param) :=
  opt first_iter [(.saveState, [])] ++
  [(.linkGeometry, []), (.upstreamGeometry, []), (.downstreamGeometry, []), (.storageAreas, []),
    (.storageVolumes, []), (.nodeVelocities, [])] ++
  opt c.orifices [(.orificeGeometry, [.u])] ++
  opt c.inertialDamping [(.flowRegime, [])] ++
  [(.linkCoeffs, [._dt, .first_iter]), (.nodeCoeffs, [._Q_0Ik, ._dt, .first_iter]), (.forwardRecurrence, []),
    (.backwardRecurrence, []), (.upstreamHead, [._dt]), (.downstreamHead, [._dt]), (.flowCoeffs, [])] ++
  opt c.orifices [(.orificeCoeffs, [.u])] ++
  opt c.weirs [(.weirCoeffs, [.u])] ++
  opt c.pumps [(.pumpCoeffs, [.u])] ++
  [(.matrixEquations, [.H_bc, ._Q_0j, .first_time, ._dt, .implicit])]

/-- The calls of `_solve_step` — superlink.py 4053–4083. -/
def solveCalls (c : Cfg) : List (Meth × List Param) :=
  (if c.banded then [(.solveBanded, [.implicit])] else [(.solveSparse, [.implicit])]) ++
  [(.solveFlows, [])] ++
  opt c.orifices [(.solveOrifices, [.dt, .u])] ++
  opt c.weirs [(.solveWeirs, [.u])] ++
  opt c.pumps [(.solvePumps, [.u])] ++
  [(.solveDepths, [])] ++
  opt c.exitHydraulics [(.exitConditions, []), (.criticalDepth, []), (.exitHydraulics, [])] ++
  (match c.method with
    | .b => [(.internalsBackwards, [])]
    | .f => [(.internalsForwards, [])]
    | .nnls => [(.internalsNnls, [])]
    | .lsq => [(.internalsLsq, [])]
    | .other => [])

/-- An exception: of the binding, or one raised by a body. -/
inductive Exc (E : Type*)
  | typeError
  | notImplemented
  | body (e : E)

variable {σ E : Type*}

/-- Execute calls in order; each binds its arguments and then runs its body (which may raise). -/
def exec (sig : Meth → Sig) (body : Meth → σ → Except E σ) : List (Meth × List Param) → σ → Except (Exc E) σ
  | [], s => .ok s
  | (m, kw) :: rest, s =>
    if binds (sig m) kw then
      match body m s with
      | .ok s' => exec sig body rest s'
      | .error e => .error (.body e)
    else .error .typeError

/-- `_setup_step` and `_solve_step` once — superlink.py 4015–4083. -/
def once (sig : Meth → Sig) (body : Meth → σ → Except E σ) (c : Cfg) (implicit first_iter : Bool) (s : σ) :
    Except (Exc E) σ :=
  if implicit then
    match exec sig body (setupCalls c first_iter) s with
    | .ok s' => exec sig body (solveCalls c) s'
    | .error e => .error e
  else
    match exec sig body (opt first_iter [(.saveState, [])]) s with
    | .ok _ => .error .notImplemented
    | .error e => .error e

/-- The further iterations of `step` — superlink.py 4132–4149; `conv` is the test of the residual. -/
def iterate (sig : Meth → Sig) (body : Meth → σ → Except E σ) (c : Cfg) (implicit : Bool) (conv : σ → σ → Bool) :
    ℕ → σ → Except (Exc E) σ
  | 0, s => .ok s
  | n + 1, s =>
    match once sig body c implicit false s with
    | .ok s' => if conv s s' then .ok s' else iterate sig body c implicit conv n s'
    | .error e => .error e

/-- `step` — superlink.py 4085–4150. -/
def step (sig : Meth → Sig) (body : Meth → σ → Except E σ) (c : Cfg) (implicit first_iter : Bool)
    (conv : σ → σ → Bool) (num_iter : ℕ) (s : σ) : Except (Exc E) σ :=
  match once sig body c implicit first_iter s with
  | .ok s' => if conv s s' then .ok s' else iterate sig body c implicit conv (num_iter - 1) s'
  | .error e => .error e

/-- The constructor ends with a step — superlink.py 768–773; `build` is everything before it. -/
def construct (sig : Meth → Sig) (body : Meth → σ → Except E σ) (c : Cfg) (conv : σ → σ → Bool)
    (build : Except E σ) : Except (Exc E) σ :=
  match build with
  | .ok s => step sig body c true true conv 1 s
  | .error e => .error (.body e)

end Pipedream.Binding
