import Verif.DriverModel
import Verif.InterpModel

/-!
# Model of what a `Simulation` is given and what it reports

The constructor's handling of times and of the initial record, `record_state`, `load_state`, `__exit__`
and `print_progress` (`/repo/pipedream_solver/simulation.py` 86–320), the sampling of input tables in
`_step` (simulation.py 576–624) and `SuperLink.spinup` (`/repo/pipedream_solver/superlink.py` 3955–3970).

The model object and `Simulation.step` are those of `DriverModel`. Recorded arrays are copies
(`np.copy`, simulation.py 232, 283), so they are values here; aliasing of `self.model.states` is the
subject of `HeapModel`.
-/

namespace Pipedream.Record

open Pipedream.Driver Pipedream.Interp Pipedream.Link

noncomputable section

/-- `d.update({k : v})` for one key: an existing key keeps its place, a new one goes last. -/
def dictUpdate {V : Type} (k : ℝ) (v : V) : List (ℝ × V) → List (ℝ × V)
  | [] => [(k, v)]
  | e :: r =>
    have : Decidable (e.1 = k) := Classical.dec _
    if e.1 = k then (k, v) :: r else e :: dictUpdate k v r

/-- `d[t]`. -/
def lookup {V : Type} (t : ℝ) : List (ℝ × V) → Option V
  | [] => none
  | e :: r =>
    have : Decidable (e.1 = t) := Classical.dec _
    if e.1 = t then some e.2 else lookup t r

/-- How recorded variables are read. `obs v` is `getattr(model, v)`, `inStates v` says whether `v` is a
key of `model.states` (fixed after construction: `save_state`, superlink.py 3906–3928, writes the same
keys every time), `vars` are the keys of `self.state_variables` — simulation.py 142–150. -/
structure View (X Var V : Type) where
  obs : Var → X → V
  inStates : Var → Bool
  vars : List Var

/-- The `States` object: one dict per variable, `none` when the attribute does not exist. -/
abbrev States (Var V : Type) := Var → Option (List (ℝ × V))

variable {X W I Var V : Type} [DecidableEq Var] (vw : View X Var V)

/-- One pass of the loop of `record_state` — simulation.py 278–283. -/
def recordVar (m : Mdl X W) (st : States Var V) (v : Var) : States Var V :=
  if vw.inStates v then
    fun u => if u = v then some (dictUpdate m.t (vw.obs v m.x) ((st v).getD [])) else st u
  else st

/-- `record_state(state_variables)` — simulation.py 264–284. An empty argument means all variables. -/
def recordState (vs : List Var) (m : Mdl X W) (st : States Var V) : States Var V :=
  (if vs.isEmpty then vw.vars else vs).foldl (recordVar vw m) st

/-- One pass of the constructor's loop — simulation.py 228–232: the value comes from
`model.states[state]`, the key is `float(model.t)`. -/
def initVar (m : Mdl X W) (st : States Var V) (v : Var) : States Var V :=
  if vw.inStates v then fun u => if u = v then some [(m.t, vw.obs v m.saved.2)] else st u else st

/-- The initial record — simulation.py 227–232. -/
def initStates (m : Mdl X W) : States Var V := vw.vars.foldl (initVar vw m) (fun _ => none)

/-- A `Simulation` with the attributes modelled here. `tEnd = ⊤` is `np.inf`. -/
structure RSim (X W Var V : Type) where
  sim : Sim X W
  tStart : ℝ
  tEnd : WithTop ℝ
  states : States Var V

/-- Smallest and largest entry of a non-empty index. -/
def idxMin (i : ℝ × List ℝ) : ℝ := i.2.foldl min i.1
def idxMax (i : ℝ × List ℝ) : ℝ := i.2.foldl max i.1

/-- `self.t_start` and the time of the model — simulation.py 151–158. `inputs` are the indices of the
tables that were given, each non-empty. -/
def startTime (tStart : Option ℝ) (inputs : List (ℝ × List ℝ)) (m : Mdl X W) : Mdl X W × ℝ :=
  match tStart with
  | some a => (m, a)
  | none =>
    match inputs with
    | [] => (m, m.t)
    | i :: r => let a := (r.map idxMin).foldl min (idxMin i); ({ m with t := a }, a)

/-- `self.t_end` — simulation.py 159–165. -/
def endTime (tEnd : Option ℝ) (inputs : List (ℝ × List ℝ)) : WithTop ℝ :=
  match tEnd with
  | some b => b
  | none =>
    match inputs with
    | [] => ⊤
    | i :: r => ((r.map idxMax).foldl max (idxMax i) : ℝ)

/-- `Simulation.__init__` — simulation.py 86–232, restricted to times, step-size queues and records.
`method = none` stands for an unknown `interpolation_method`; `dt = none` uses `model._dt`. -/
def construct (dflt : ℝ) (dt tStart tEnd : Option ℝ) (method : Option Method)
    (inputs : List (ℝ × List ℝ)) (m : Mdl X W) : Except PyErr (RSim X W Var V) :=
  match method with
  | none => .error .valueError
  | some _ =>
    let p := startTime tStart inputs m
    .ok { sim := ⟨p.1, dt.getD dflt, [dt.getD dflt], [.val eps], 0⟩
          tStart := p.2
          tEnd := endTime tEnd inputs
          states := initStates vw p.1 }

/-- What a user does inside the `with` block: `step` with explicit arguments, `record_state`,
`load_state` with a given state. -/
inductive Op (X Var : Type)
  | step (k : Call)
  | record (vs : List Var)
  | load (st : ℝ × X)

/-- One operation. -/
def runOp (hy : Hydraulics X W I) (c : Cfg I) (r : RSim X W Var V) : Op X Var →
    Except DErr (RSim X W Var V)
  | .step k =>
    match simStep hy c k.sub k.retries k.tol k.norm k.dt r.sim with
    | .ok s => .ok { r with sim := s }
    | .error e => .error e
  | .record vs => .ok { r with states := recordState vw vs r.sim.m r.states }
  | .load st => .ok { r with sim := { r.sim with m := loadState hy st r.sim.m } }

/-- A sequence of operations; an exception ends it. -/
def runOps (hy : Hydraulics X W I) (c : Cfg I) : List (Op X Var) → RSim X W Var V →
    Except DErr (RSim X W Var V)
  | [], r => .ok r
  | o :: rest, r =>
    match runOp vw hy c r o with
    | .ok r' => runOps hy c rest r'
    | .error e => .error e

/-- Index and rows of the table `__exit__` leaves in `states` — simulation.py 237–247:
`DataFrame.from_dict(d, orient='index')` keeps the insertion order of the dict. (Column labels are
treated in `ConstructProps`, property C69.) -/
def exitFrame (d : List (ℝ × V)) : List ℝ × List V := (d.map Prod.fst, d.map Prod.snd)

/-! ### Inputs of a step -/

/-- One input table: number of rows, index and, per column, the values. -/
structure Table where
  n : ℕ
  time : ℕ → ℝ
  val : ℕ → ℕ → ℝ

/-- One of the three blocks of `_step` — simulation.py 581–613: a keyword argument wins, then the table
sampled at `t_next`, otherwise `None`. The keyword value is passed on as it is. -/
def inputAt (method : Method) (kw : Option (ℕ → ℝ)) (tbl : Option Table) (tNext : ℝ) :
    Option (ℕ → ℝ) :=
  match kw with
  | some v => some v
  | none =>
    match tbl with
    | some T => some fun j => interpolate method T.n T.time (fun i => T.val i j) tNext
    | none => none

/-- The three inputs of a step. -/
structure Inp where
  Q_in : Option (ℕ → ℝ)
  H_bc : Option (ℕ → ℝ)
  Q_Ik : Option (ℕ → ℝ)

/-- The inputs `_step` hands to `model.step` for a step that ends at `tNext` — simulation.py 576–624.
`kw` and `tbl` give, for each input, the keyword argument and the table. -/
def forcing (method : Method) (kw : Inp) (tQ tH tI : Option Table) (tNext : ℝ) : Inp where
  Q_in := inputAt method kw.Q_in tQ tNext
  H_bc := inputAt method kw.H_bc tH tNext
  Q_Ik := inputAt method kw.Q_Ik tI tNext

/-! ### Spin-up -/

/-- The loop of `spinup` — superlink.py 3964–3967: `n` calls of `step` with the same inputs (without
`reposition_junctions`). -/
def spinLoop (hy : Hydraulics X W I) (dflt dt : ℝ) (numIter : ℤ) (tol : ℝ) (inp : I) :
    ℕ → Mdl X W → Except DErr (Mdl X W)
  | 0, m => .ok m
  | n + 1, m =>
    match superStep hy dflt (some dt) numIter tol inp m with
    | .ok (m', _) => spinLoop hy dflt dt numIter tol inp n m'
    | .error e => .error e

/-- `spinup(n_steps, dt, …, reset_counters)` — superlink.py 3955–3970. `self.states` is not touched by
the reset. -/
def spinup (hy : Hydraulics X W I) (dflt dt : ℝ) (numIter : ℤ) (tol : ℝ) (inp : I) (n : ℕ)
    (reset : Bool) (m : Mdl X W) : Except DErr (Mdl X W) :=
  match spinLoop hy dflt dt numIter tol inp n m with
  | .error e => .error e
  | .ok m' => .ok (if reset then { m' with t := 0, iter := 0 } else m')

/-! ### Progress bar -/

/-- Python's `round(x)`: to the nearest integer, ties to the even one. -/
def pyRound (x : ℝ) : ℤ :=
  if Int.fract x = 1 / 2 then (if Even ⌊x⌋ then ⌊x⌋ else ⌊x⌋ + 1) else round x

/-- `np.linspace(t_start, t_end)`, 50 points — simulation.py 215. -/
def checkpoint (a b : ℝ) (i : ℕ) : ℝ := a + i * ((b - a) / 49)

/-- The bar printed by `print_progress` — simulation.py 311–318: numbers of `=` and `-` (a negative
repeat count gives an empty string). Division of Python floats raises. -/
def bar (a b t : ℝ) : Except PyErr (ℕ × ℕ) :=
  let t := if t > b then b else t
  if b - a = 0 then .error .zeroDivision
  else
    let len := pyRound (50 * ((t - a) / (b - a)))
    .ok (len.toNat, (50 - len).toNat)

/-- `print_progress()` with checkpoints and a finite end time — simulation.py 286–320. `num` is
`_checkpoint_num`; returns its new value and what was printed, if anything. -/
def printProgress (a b t : ℝ) (num : ℕ) : Except PyErr (ℕ × Option (ℕ × ℕ)) :=
  let cur := searchsorted 50 (checkpoint a b) t
  if cur = num then .ok (num, none)
  else
    match bar a b t with
    | .error e => .error e
    | .ok p => .ok (cur, some p)

/-- Calls of `print_progress` at successive times; the bars printed, newest last. -/
def printAll (a b : ℝ) : List ℝ → ℕ → Except PyErr (List (ℕ × ℕ))
  | [], _ => .ok []
  | t :: ts, num =>
    match printProgress a b t num with
    | .error e => .error e
    | .ok (num', p) =>
      match printAll a b ts num' with
      | .error e => .error e
      | .ok l => .ok (p.toList ++ l)

end

end Pipedream.Record
