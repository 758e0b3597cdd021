import Verif.LinkModel
import Mathlib.Analysis.SpecialFunctions.Pow.Real
import Mathlib.Analysis.SpecialFunctions.Sqrt

/-!
# Model of the time-stepping drivers

`SuperLink.step`, `_setup_step`, `_solve_step`, `save_state`, `load_state`
(`/repo/pipedream_solver/superlink.py` 3906–4150) and `Simulation.step`, `_step`, the error norms and the
step-size controllers (`/repo/pipedream_solver/simulation.py` 322–624).

The hydraulics themselves are a parameter: `Hydraulics.pass` stands for everything between `save_state`
and `self.iter_count += 1` (its algebra is the subject of `StepModel`). `X` is the type of the hydraulic
state listed in `save_state`, `W` that of all other arrays of the model object (scratch), `I` that of
the inputs of a step. Heads are `none` when not finite.
-/

namespace Pipedream.Driver

open Pipedream.Link

noncomputable section

/-- Exceptions: those of the hydraulics, a failed `assert`, and the bare `raise` of an unknown norm. -/
inductive DErr
  | py (e : PyErr)
  | assertion
  | runtime
  deriving DecidableEq

/-- The hydraulics as seen by the drivers. `pass saved cur w dt inp` is one `_setup_step` (without
`save_state`) and `_solve_step` (without the counters), superlink.py 4019–4081; `reload` is the
recomputation of geometries in `load_state`, superlink.py 3948–3953. -/
structure Hydraulics (X W I : Type) where
  M : ℕ
  heads : X → ℕ → Option ℝ
  pass : X → X → W → ℝ → I → Except PyErr (X × W)
  reload : X → W → W

/-- The mutable part of a model object: time, `iter_count`, hydraulic state, `self.states`, scratch. -/
structure Mdl (X W : Type) where
  t : ℝ
  iter : ℤ
  x : X
  saved : ℝ × X
  w : W

variable {X W I : Type} (hy : Hydraulics X W I)

/-- `save_state` — superlink.py 3906–3928. -/
def saveState (s : Mdl X W) : Mdl X W := { s with saved := (s.t, s.x) }

/-- `load_state(states)` with non-empty `states` — superlink.py 3930–3953. `iter_count` is not part of the
saved state. -/
def loadState (st : ℝ × X) (s : Mdl X W) : Mdl X W :=
  { s with t := st.1, x := st.2, w := hy.reload st.2 s.w }

/-- `_setup_step` followed by `_solve_step` — superlink.py 4015–4083. `dflt` is `self._dt`. With
`dt=None` the set-up uses `self._dt`, but `_solve_step` does not: it ends with `self.t += None` (with
orifices, `_V_sj / None` comes first), a `TypeError` in both cases. -/
def onePass (dflt : ℝ) (dt : Option ℝ) (first : Bool) (inp : I) (s : Mdl X W) :
    Except DErr (Mdl X W) :=
  let s := if first then saveState s else s
  match hy.pass s.saved.2 s.x s.w (dt.getD dflt) inp with
  | .error e => .error (.py e)
  | .ok (x, w) =>
    match dt with
    | none => .error (.py .typeError)
    | some dt => .ok { s with x := x, w := w, iter := s.iter + 1, t := s.t + dt }

/-- `(np.abs(H - H') < head_tol).all()`; comparisons with `nan` are false. -/
def Close (tol : ℝ) (x y : X) : Prop :=
  ∀ j, j < hy.M → ∃ a b, hy.heads x j = some a ∧ hy.heads y j = some b ∧ |a - b| < tol

/-- The fixed-point loop — superlink.py 4136–4149. `xn` holds `H_j_next`, `e` is `iter_elapsed`. -/
def fixLoop (dflt dt : ℝ) (tol : ℝ) (inp : I) : ℕ → X → Mdl X W → ℕ → Except DErr (Mdl X W × ℕ)
  | 0, _, s, e => .ok (s, e)
  | n + 1, xn, s, e =>
    match onePass hy dflt (some dt) false inp { s with iter := s.iter - 1, t := s.t - dt } with
    | .error er => .error er
    | .ok s' =>
      have : Decidable (Close hy tol xn s'.x) := Classical.dec _
      if Close hy tol xn s'.x then .ok (s', e + 1)
      else fixLoop dflt dt tol inp n s'.x s' (e + 1)

/-- `SuperLink.step` — superlink.py 4085–4150, returning also `iter_elapsed`. -/
def superStep (dflt : ℝ) (dt : Option ℝ) (numIter : ℤ) (tol : ℝ) (inp : I) (s : Mdl X W) :
    Except DErr (Mdl X W × ℕ) :=
  match onePass hy dflt dt true inp s with
  | .error e => .error e
  | .ok s1 =>
    have : Decidable (Close hy tol s1.x s1.saved.2) := Classical.dec _
    match dt with
    | none => .ok (s1, 1)
    | some dt =>
      if numIter - 1 > 0 then
        if Close hy tol s1.x s1.saved.2 then .ok (s1, 1)
        else fixLoop hy dflt dt tol inp (numIter - 1).toNat s1.x s1 1
      else .ok (s1, 1)

/-! ### Simulation -/

/-- The error recorded for a step: none was estimated (`None`), not finite, or a number. -/
inductive Est
  | none
  | nan
  | val (r : ℝ)

/-- `np.finfo(float).eps`. -/
def eps : ℝ := 2 ^ (-52 : ℤ)

/-- Mutable part of a `Simulation` — simulation.py 86–232. The newest entry of `dts`, `errs` is first. -/
structure Sim (X W : Type) where
  m : Mdl X W
  dt : ℝ
  dts : List ℝ
  errs : List Est
  iter : ℕ

/-- Fixed settings: the model's default step, `num_iter`, `head_tol`, `min_dt`, and the forcing
(`Q_in`, `H_bc`, `Q_Ik` interpolated at a time, simulation.py 576–624). -/
structure Cfg (I : Type) where
  dflt : ℝ
  numIter : ℤ
  headTol : ℝ
  minDt : ℝ
  forcing : ℝ → I

variable (c : Cfg I)

/-- `_step` — simulation.py 576–624: forcing is sampled at the end of the step. -/
def modelStep (dt : ℝ) (m : Mdl X W) : Except DErr (Mdl X W) :=
  match superStep hy c.dflt (some dt) c.numIter c.headTol (c.forcing (m.t + dt)) m with
  | .ok (m', _) => .ok m'
  | .error e => .error e

/-- `for _ in range(subdivisions): self._step(dt=dt / subdivisions)` — simulation.py 548–549. -/
def substeps (dt : ℝ) : ℕ → Mdl X W → Except DErr (Mdl X W)
  | 0, m => .ok m
  | n + 1, m =>
    match modelStep hy c dt m with
    | .ok m' => substeps dt n m'
    | .error e => .error e

/-- One entry of `_scaled_error` — simulation.py 322–332. numpy returns `inf`/`nan` for a zero
denominator; all non-finite values are `none` here. -/
def scaledErr (coarse fine prev : X) (j : ℕ) : Option ℝ :=
  match hy.heads coarse j, hy.heads fine j, hy.heads prev j with
  | some a, some b, some p =>
    let d := 1e-6 + max b p * 1e-3
    if d = 0 then none else some ((a - b) / d)
  | _, _, _ => none

/-- `np.max(np.abs(v))` over the first `n` entries. -/
def maxAbs (v : ℕ → ℝ) : ℕ → ℝ
  | 0 => 0
  | n + 1 => max (maxAbs v n) |v n|

/-- `_normed_error` — simulation.py 334–348. Norm 0 ignores `nan` entries (`nan > 0` is false). -/
def normedErr (norm : ℤ) (n : ℕ) (v : ℕ → Option ℝ) : Except DErr Est :=
  have : Decidable (∀ j, j < n → (v j).isSome) := Classical.dec _
  let u : ℕ → ℝ := fun j => (v j).getD 0
  if norm = 0 then
    .ok (.val (max |(∑ j ∈ Finset.range n, if u j > 0 then (1 : ℝ) else 0) / n| eps))
  else if norm = 1 then
    if ∀ j, j < n → (v j).isSome then .ok (.val (max |(∑ j ∈ Finset.range n, u j) / n| eps)) else .ok .nan
  else if norm = 2 then
    if ∀ j, j < n → (v j).isSome then
      .ok (.val (max |Real.sqrt ((∑ j ∈ Finset.range n, u j ^ 2) / n)| eps)) else .ok .nan
  else if norm = -1 then
    if ∀ j, j < n → (v j).isSome then .ok (.val (max |maxAbs u n| eps)) else .ok .nan
  else .error .runtime

/-- `deque.appendleft` on a queue with `maxlen=3`. -/
def push {α : Type} (a : α) (l : List α) : List α := (a :: l).take 3

/-- The part of `Simulation.step` up to the error estimate — simulation.py 527–555. Returns the model,
the error and `initial_state`. -/
def attempt (sub : ℕ) (norm : ℤ) (dt : ℝ) (m : Mdl X W) :
    Except DErr (Mdl X W × Est × (ℝ × X)) :=
  match modelStep hy c dt m with
  | .error e => .error e
  | .ok m1 =>
    if sub > 1 then
      match substeps hy c (dt / sub) sub (loadState hy m1.saved m1) with
      | .error e => .error e
      | .ok m2 =>
        match normedErr norm hy.M (scaledErr hy m1.x m2.x m2.saved.2) with
        | .error e => .error e
        | .ok err => .ok (m2, err, m1.saved)
    else .ok (m1, .none, m1.saved)

/-- `(err is not None) and ((err > tol) or (not np.isfinite(err)))` — simulation.py 562, 568. -/
def Est.rejected (tol : ℝ) : Est → Prop
  | .none => False
  | .nan => True
  | .val e => e > tol

/-- `np.isfinite(self.model.H_j).all()`. -/
def Finite (x : X) : Prop := ∀ j, j < hy.M → (hy.heads x j).isSome

/-- The end of `Simulation.step` — simulation.py 573–574. -/
def finish (s : Sim X W) : Except DErr (Sim X W) :=
  have : Decidable (Finite hy s.m.x) := Classical.dec _
  if Finite hy s.m.x then .ok { s with iter := s.iter + 1 } else .error .assertion

/-- State after an attempt has been entered in the histories — simulation.py 556–560. -/
def record (dt : ℝ) (m : Mdl X W) (err : Est) (s : Sim X W) : Sim X W :=
  { s with m := m, dt := dt, dts := push dt s.dts, errs := push err s.errs }

/-- `Simulation.step(dt, subdivisions, retries, tol, norm)` — simulation.py 503–574. The recursive call
passes neither `tol` nor `norm`, so it runs with their defaults 1 and 2. (`retries` is a natural number;
`coeffs` and `safety_factor` are not used by the code.) -/
def simStep (sub : ℕ) : ℕ → ℝ → ℤ → ℝ → Sim X W → Except DErr (Sim X W)
  | 0, _, norm, dt, s =>
    match attempt hy c sub norm dt s.m with
    | .error e => .error e
    | .ok (m, err, _) => finish hy (record dt m err s)
  | r + 1, tol, norm, dt, s =>
    match attempt hy c sub norm dt s.m with
    | .error e => .error e
    | .ok (m, err, ini) =>
      have : Decidable (err.rejected tol ∧ 0.5 * dt > c.minDt) := Classical.dec _
      let s1 := record dt m err s
      if err.rejected tol ∧ 0.5 * dt > c.minDt then
        match simStep sub r 1 2 (0.5 * dt)
            { s1 with m := loadState hy ini m, dts := s1.dts.tail, errs := s1.errs.tail } with
        | .error e => .error e
        | .ok s2 => finish hy s2
      else finish hy s1

/-- A user's sequence of calls of `Simulation.step` with explicit arguments. -/
structure Call where
  sub : ℕ
  retries : ℕ
  tol : ℝ
  norm : ℤ
  dt : ℝ

/-- Run a list of calls. -/
def simRun : List Call → Sim X W → Except DErr (Sim X W)
  | [], s => .ok s
  | k :: rest, s =>
    match simStep hy c k.sub k.retries k.tol k.norm k.dt s with
    | .error e => .error e
    | .ok s' => simRun rest s'

/-! ### Step-size controllers -/

/-- `compute_step_size` with all settings given — simulation.py 350–380. With `err=None` and no previous
error the current step size is returned. -/
def computeStepSize (dt : ℝ) (err : Option ℝ) (minDt maxDt tol minRel maxRel safety : ℝ) : ℝ :=
  match err with
  | none => dt
  | some err =>
    let err := max |err| eps
    let dt := safety * dt * min (max (Real.sqrt (tol / 2 / err)) minRel) maxRel
    min (max dt minDt) maxDt

/-- Filter coefficients, simulation.py 131–137. -/
structure Coeffs where
  b1 : ℝ
  b2 : ℝ
  b3 : ℝ
  a2 : ℝ
  a3 : ℝ

/-- `filter_step_size` with the histories of the simulation — simulation.py 382–452. Powers are
`Real.rpow`; the theorems assume positive bases. `tol / None` raises, a `nan` factor returns `dt_n`. -/
def filterStepSize (tol : ℝ) (dts : List ℝ) (errs : List Est) (q : Coeffs)
    (minDt maxDt minRel maxRel safety k : ℝ) : Except DErr ℝ :=
  match dts with
  | [] => .error (.py .valueError)
  | [d] => .ok d
  | [d, _] => .ok d
  | [dn, dm1, dm2] =>
    match errs with
    | [en, em1, em2] =>
      match en, em1, em2 with
      | .val en, .val em1, .val em2 =>
        let factor := (tol / en) ^ (q.b1 / k) * (tol / em1) ^ (q.b2 / k) * (tol / em2) ^ (q.b3 / k)
          * (dn / dm1) ^ (-q.a2) * (dm1 / dm2) ^ (-q.a3)
        let factor := safety * min (max factor minRel) maxRel
        .ok (min (max (factor * dn) minDt) maxDt)
      | .none, _, _ => .error (.py .typeError)
      | _, .none, _ => .error (.py .typeError)
      | _, _, .none => .error (.py .typeError)
      | _, _, _ => .ok dn
    | _ => .error (.py .valueError)
  | _ => .error (.py .valueError)

end

end Pipedream.Driver
