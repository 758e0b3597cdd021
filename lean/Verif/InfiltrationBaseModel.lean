import Verif.InfiltrationModel

/-!
# Model of the infiltration class used without numba

`hydrology.py` takes `GreenAmpt` of `/repo/pipedream_solver/infiltration.py` when numba cannot be imported.
Cases 1 and 2, runoff and ponding are shared with `nGreenAmpt` (`InfiltrationModel`); the saturated case and
the third unsaturated case call `scipy.optimize.newton` instead of `bounded_newton_raphson`.
-/

namespace Pipedream.Infiltration

open Pipedream.Link Pipedream.Root

/-- `scipy.optimize.newton` with a derivative raises `RuntimeError` when it fails. -/
inductive BErr
  | runtime
  deriving DecidableEq

/-- The loop of `scipy.optimize.newton(func, x0, fprime, args)` with the defaults `tol=1.48e-8`, `rtol=0`
(scipy is specified here, see DESIGN.md section 1), applied to `integrated_green_ampt` and
`derivative_green_ampt` — infiltration.py 321–364, the same formulas as `gaF`, `gaD`. `k` iterations left.
An argument `F_2 + |psi|·theta_d ≤ 0` of the logarithm makes the residual `nan` or `-inf` and every later
iterate `nan`, so that the budget is exhausted: `RuntimeError`. -/
noncomputable def scipyLoop (p : Soil) (thd F1 dt : ℝ) : ℕ → ℝ → Except BErr ℝ
  | 0, _ => .error .runtime
  | k + 1, p0 =>
    if p0 + |p.psi| * thd ≤ 0 then .error .runtime
    else if gaF p thd F1 dt p0 = 0 then .ok p0
    else if gaD p thd p0 = 0 then .error .runtime
    else
      let q := p0 - gaF p thd F1 dt p0 / gaD p thd p0
      if |q - p0| ≤ 1.48e-8 then .ok q else scipyLoop p thd F1 dt k q

/-- `scipy.optimize.newton(...)` with `maxiter=50`; the constant `C` contains the logarithm of
`F_1 + |psi|·theta_d`. -/
noncomputable def scipyNewton (p : Soil) (thd x0 F1 dt : ℝ) : Except BErr ℝ :=
  if 0 < F1 + |p.psi| * thd then scipyLoop p thd F1 dt 50 x0 else .error .runtime

/-- `saturated_case` — infiltration.py 270–319. -/
noncomputable def saturatedCaseB (p : Soil) (dt ia : ℝ) (s : GA) : Except BErr GA := do
  let F2 ← scipyNewton p s.thd s.F s.F dt
  let dF0 := F2 - s.F
  let dF := if dF0 > ia * dt then ia * dt else dF0
  let sat := if dF0 > ia * dt then false else s.sat
  return { s with
    T := p.Tr
    F := s.F + dF
    thdu := clampTh p (s.thdu - dF / p.Lu)
    f := dF / dt
    sat := sat }

/-- `unsaturated_case_3` — infiltration.py 191–268. -/
noncomputable def case3B (p : Soil) (dt ia : ℝ) (s : GA) : Except BErr GA :=
  let Fs := p.Ks * p.psi * s.thd / (ia - p.Ks)
  if s.F ≥ Fs then saturatedCaseB p dt ia { s with T := p.Tr, sat := true }
  else if s.F + ia * dt < Fs then
    .ok { s with
      T := p.Tr
      f := ia
      F := s.F + ia * dt
      thdu := clampTh p (s.thdu - ia * dt / p.Lu) }
  else do
    let sub_dt := dt - (Fs - s.F) / ia
    let F2 ← scipyNewton p s.thd s.F Fs sub_dt
    let dF := F2 - s.F
    return { s with
      T := p.Tr
      F := F2
      thdu := clampTh p (s.thdu - dF / p.Lu)
      f := dF / dt }

/-- The case distinction of `step` — infiltration.py 388–403. -/
noncomputable def infiltrateB (p : Soil) (dt ia : ℝ) (s : GA) : Except BErr GA :=
  if s.sat then saturatedCaseB p dt ia s
  else
    let s1 := if ia = 0 then case1 p dt s else s
    let s2 := if ia ≤ p.Ks then case2 p dt ia s1 else s1
    if ia > p.Ks then case3B p dt ia s2 else .ok s2

/-- `step` — infiltration.py 376–407. -/
noncomputable def stepB (p : Soil) (dt i : ℝ) (s : GA) : Except BErr GA := do
  let ia := available dt i s
  let s' ← infiltrateB p dt ia { s with T := s.T - dt }
  return surface p dt i s'

end Pipedream.Infiltration
