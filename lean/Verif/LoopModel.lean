import Verif.DriverModel
import Verif.WholeModel

/-!
# Model of the documented simulation loops

The two loops a user writes around `Simulation.step`: with a fixed step (`/repo/README.md` 86–93,
`/repo/docs/simulation-context.md` 166–173) and with an adaptive one (`/repo/docs/adaptive-stepsize.md` 64–87,
`/repo/docs/validation.md` 76–92), and the hydraulics of `WholeModel` in the form which the drivers of `DriverModel`
expect.

Recording, progress bar and the dictionaries of the user are left out: they do not change the simulation
(`RecordModel`). `reposition_junctions` is left out too (it does nothing unless `mobile_elements` is set; `RepositionModel`).
-/

namespace Pipedream.Driver

open Pipedream.Link Pipedream.Step

noncomputable section

/-- `while cond: body` (or `for step in count(): if not cond: break; body`), run for at most `n` iterations; `none` when
it has not ended by then. -/
def whileLoop {σ : Type} (cond : σ → Prop) (body : σ → Except DErr σ) : ℕ → σ → Except DErr (Option σ)
  | 0, s =>
    have : Decidable (cond s) := Classical.dec _
    if cond s then .ok none else .ok (some s)
  | n + 1, s =>
    have : Decidable (cond s) := Classical.dec _
    if cond s then
      match body s with
      | .error e => .error e
      | .ok s' => whileLoop cond body n s'
    else .ok (some s)

variable {X W I : Type} (hy : Hydraulics X W I) (c : Cfg I)

/-- `while simulation.t <= simulation.t_end: simulation.step(dt=dt)` — README.md 86–93. `tEnd = ⊤` is
`self.t_end = np.inf`, the default without inputs (simulation.py 164–170). -/
def fixedLoop (tEnd : WithTop ℝ) (dt : ℝ) : ℕ → Sim X W → Except DErr (Option (Sim X W)) :=
  whileLoop (fun s => (s.m.t : WithTop ℝ) ≤ tEnd) (simStep hy c 1 0 1 2 dt)

/-- Settings of the step-size filter — simulation.py 382–384, 424–433. -/
structure Filter where
  tol : ℝ
  q : Coeffs
  minDt : ℝ
  maxDt : ℝ
  minRel : ℝ
  maxRel : ℝ
  safety : ℝ
  k : ℝ

/-- Body of the adaptive loop: one step, then `dt = simulation.filter_step_size(tol=tol, coeffs=coeffs)` —
adaptive-stepsize.md 72–85. The second component is the user's variable `dt`. Where an error estimate is zero the quotients of
the filter are infinite in the code; the theorems use only that its result is `dt_n` or lies between the limits. -/
def adaptiveBody (f : Filter) (sub retries : ℕ) (norm : ℤ) (p : Sim X W × ℝ) : Except DErr (Sim X W × ℝ) :=
  match simStep hy c sub retries 1 norm p.2 p.1 with
  | .error e => .error e
  | .ok s' =>
    match filterStepSize f.tol s'.dts s'.errs f.q f.minDt f.maxDt f.minRel f.maxRel f.safety f.k with
    | .error e => .error e
    | .ok dt' => .ok (s', dt')

/-- `for step in simulation.steps: if simulation.t >= simulation.t_end: break; …` — adaptive-stepsize.md 69–87. -/
def adaptiveLoop (f : Filter) (sub retries : ℕ) (norm : ℤ) (tEnd : WithTop ℝ) :
    ℕ → Sim X W × ℝ → Except DErr (Option (Sim X W × ℝ)) :=
  whileLoop (fun p => ¬ tEnd ≤ (p.1.m.t : WithTop ℝ)) (adaptiveBody hy c f sub retries norm)

/-- The step of `WholeModel` as seen by the drivers (superlink.py 4015–4083): scratch is the pair of work arrays and
hidden arrays; `load_state` leaves both (the geometry which it recomputes is recomputed by the next step, superlink.py
3948–3953 and 4022–4032). Where the code would raise, the kind of exception is not modelled. -/
def hydOf (m : Model) (P : Plan) : Hydraulics Hyd (Work × Hidden) Inputs where
  M := m.M
  heads := fun s j => some (s.H j)
  pass := fun sv cur w dt inp =>
    have : Decidable (∃ o', Calls1 m P false { inp with dt := dt } ⟨sv, cur, w.1, w.2⟩ o') := Classical.dec _
    if h : ∃ o', Calls1 m P false { inp with dt := dt } ⟨sv, cur, w.1, w.2⟩ o' then
      .ok (h.choose.cur, (h.choose.wk, h.choose.hid))
    else .error .valueError
  reload := fun _ w => w

end

end Pipedream.Driver
