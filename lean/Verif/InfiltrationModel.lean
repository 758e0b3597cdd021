import Verif.RootModel
import Mathlib.Analysis.SpecialFunctions.Log.Basic
import Mathlib.Analysis.SpecialFunctions.Sqrt

/-!
# Model of the Green–Ampt infiltration

`GreenAmpt` of `/repo/pipedream_solver/infiltration.py` with the overrides of `nGreenAmpt` in
`/repo/pipedream_solver/ninfiltration.py`, one soil element at a time: all numpy statements act on every
element alike through boolean masks, and an exception in one element aborts the step of all.  `InfiltrationArrayModel`
models the masks and arrays themselves, and C207 proves that they come to this.
-/

namespace Pipedream.Infiltration

open Pipedream.Link Pipedream.Root

/-- Ways in which a step can fail: an exception, or a `nan` from the logarithm of a non-positive number. -/
inductive GErr
  | py (e : PyErr)
  | nan
  deriving DecidableEq

/-- Parameters of a soil element — infiltration.py 39–61; `thmax` is `theta_dmax = theta_s - theta_i`. -/
structure Soil where
  psi : ℝ
  Ks : ℝ
  thmax : ℝ
  A_s : ℝ

/-- `sqrt(Ks · m_to_in · s_to_hr)` — infiltration.py 54–60 (`m_to_in = 39.97`). -/
noncomputable def Soil.root (p : Soil) : ℝ := Real.sqrt (p.Ks * 39.97 * 3600)

/-- `Lu` — infiltration.py 58. -/
noncomputable def Soil.Lu (p : Soil) : ℝ := 4 * p.root * 0.0254

/-- `kr` — infiltration.py 59. -/
noncomputable def Soil.kr (p : Soil) : ℝ := p.root / 75 * (1 / 3600)

/-- `Tr` — infiltration.py 60. -/
noncomputable def Soil.Tr (p : Soil) : ℝ := 4.5 / p.root * 3600

/-- State of a soil element — infiltration.py 39–68. -/
structure GA where
  F : ℝ
  f : ℝ
  thdu : ℝ
  thd : ℝ
  T : ℝ
  d : ℝ
  Q : ℝ
  t : ℝ
  sat : Bool

/-- State after construction — infiltration.py 39–68. (`Q` does not exist before the first step; 0 here.) -/
def initial (p : Soil) : GA :=
  { F := 0, f := 0, thdu := p.thmax, thd := p.thmax, T := 0, d := 0, Q := 0, t := 0, sat := false }

/-- `np.minimum(np.maximum(theta_du, 0), theta_dmax)`. -/
noncomputable def clampTh (p : Soil) (v : ℝ) : ℝ := min (max v 0) p.thmax

/-- `numba_integrated_green_ampt` — ninfiltration.py 266–292. -/
noncomputable def gaF (p : Soil) (thd F1 dt F2 : ℝ) : ℝ :=
  p.Ks * dt + F1 - p.psi * thd * Real.log (F1 + |p.psi| * thd)
    + p.psi * thd * Real.log (F2 + |p.psi| * thd) - F2

/-- `numba_derivative_green_ampt` — ninfiltration.py 294–320. The denominator is positive wherever the
root finder evaluates it (`gaD_den_pos`). -/
noncomputable def gaD (p : Soil) (thd F2 : ℝ) : ℝ := p.psi * thd / (p.psi * thd + F2) - 1

/-- One element of `run_green_ampt_newton` with the default `bounded=True`, `max_iter=50`,
`atol=1.48e-8` — ninfiltration.py 205–263. The logarithm of `F_1 + |psi|·theta_d` is `nan` (or `-inf`)
when its argument is not positive. -/
noncomputable def runNewton (p : Soil) (thd ia x0 F1 dt : ℝ) : Except GErr ℝ :=
  if 0 < F1 + |p.psi| * thd then
    match boundedNewtonRaphson (gaF p thd F1 dt) (gaD p thd) x0 0 (F1 + ia * dt) 50 1.48e-8 with
    | .ok r => .ok r
    | .error e => .error (.py e)
  else .error .nan

/-- `saturated_case` — ninfiltration.py 122–170. -/
noncomputable def saturatedCase (p : Soil) (dt ia : ℝ) (s : GA) : Except GErr GA := do
  let F2 ← runNewton p s.thd ia s.F s.F dt
  let dF0 := F2 - s.F
  let dF := if dF0 > ia * dt then ia * dt else dF0
  let sat := if dF0 > ia * dt then false else s.sat
  return { s with
    T := p.Tr
    F := s.F + dF
    thdu := clampTh p (s.thdu - dF / p.Lu)
    f := dF / dt
    sat := sat }

/-- `unsaturated_case_1` — infiltration.py 114–154. -/
noncomputable def case1 (p : Soil) (dt : ℝ) (s : GA) : GA :=
  let d_theta := p.kr * p.thmax * dt
  let thdu := clampTh p (s.thdu + d_theta)
  let F := s.F - d_theta * p.Lu
  { s with
    f := 0
    thdu := thdu
    F := if s.T ≤ 0 then 0 else F
    thd := if s.T ≤ 0 then thdu else s.thd }

/-- `unsaturated_case_2` — infiltration.py 156–189. -/
noncomputable def case2 (p : Soil) (dt ia : ℝ) (s : GA) : GA :=
  { s with
    f := ia
    F := s.F + ia * dt
    thdu := clampTh p (s.thdu - ia * dt / p.Lu) }

/-- `unsaturated_case_3` — ninfiltration.py 45–120. -/
noncomputable def case3 (p : Soil) (dt ia : ℝ) (s : GA) : Except GErr GA :=
  let Fs := p.Ks * p.psi * s.thd / (ia - p.Ks)
  if s.F ≥ Fs then saturatedCase p dt ia { s with T := p.Tr, sat := true }
  else if s.F + ia * dt < Fs then
    .ok { s with
      T := p.Tr
      f := ia
      F := s.F + ia * dt
      thdu := clampTh p (s.thdu - ia * dt / p.Lu) }
  else do
    let sub_dt := dt - (Fs - s.F) / ia
    let F2 ← runNewton p s.thd ia s.F Fs sub_dt
    let dF := F2 - s.F
    return { s with
      T := p.Tr
      F := F2
      thdu := clampTh p (s.thdu - dF / p.Lu)
      f := dF / dt }

/-- `available_rainfall` — infiltration.py 86–100. -/
noncomputable def available (dt i : ℝ) (s : GA) : ℝ := i + s.d / dt

/-- The case distinction of `step` — ninfiltration.py 184–199 (masks are computed before any case runs;
an element with no available rainfall passes through case 1 and then case 2). -/
noncomputable def infiltrate (p : Soil) (dt ia : ℝ) (s : GA) : Except GErr GA :=
  if s.sat then saturatedCase p dt ia s
  else
    let s1 := if ia = 0 then case1 p dt s else s
    let s2 := if ia ≤ p.Ks then case2 p dt ia s1 else s1
    if ia > p.Ks then case3 p dt ia s2 else .ok s2

/-- `compute_runoff` and `compute_ponding_depth` — infiltration.py 366–374, and the clock. -/
noncomputable def surface (p : Soil) (dt i : ℝ) (s : GA) : GA :=
  { s with
    Q := max (i - s.f) 0 * p.A_s
    d := max (s.d + (i - s.f)) 0
    t := s.t + dt }

/-- `step` — ninfiltration.py 172–203. -/
noncomputable def step (p : Soil) (dt i : ℝ) (s : GA) : Except GErr GA := do
  let ia := available dt i s
  let s' ← infiltrate p dt ia { s with T := s.T - dt }
  return surface p dt i s'

/-- A whole run: a list of (step size, rainfall). -/
noncomputable def run (p : Soil) : List (ℝ × ℝ) → GA → Except GErr GA
  | [], s => .ok s
  | (dt, i) :: rest, s => do
    let s' ← step p dt i s
    run p rest s'

end Pipedream.Infiltration
