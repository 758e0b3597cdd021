import Verif.StepModel

/-!
# Model of the solve that ends `Simulation.kalman_filter`

After correcting the right-hand side of the head equations, `kalman_filter` repeats the second half of the
last step, `self.model._solve_step(dt=dt, **kwargs)` (`/repo/pipedream_solver/simulation.py` 501), with the
coefficients that step left in the model. Only what the caller passes to `kalman_filter` reaches
`_solve_step` (superlink.py 4052–4083); a missing control signal becomes zero (nsuperlink.py 1552–1553,
1582–1583, 1608–1609).
-/

namespace Pipedream.Step

open Pipedream.Sweep Pipedream.Link Pipedream.Superlink Pipedream.Control Pipedream.Network

noncomputable section

/-- The keyword arguments of `kalman_filter` that `_solve_step` uses, and its `dt` (simulation.py 476–477,
454–455, 501). -/
structure FilterArgs where
  dt : ℝ
  u_o : Option (ℕ → ℝ)
  u_w : Option (ℕ → ℝ)
  u_p : Option (ℕ → ℝ)

/-- `_solve_step` called by `kalman_filter` — superlink.py 4052–4083. `cur`, `wk`, `co`, `inp`, `geo` are those
of the step that was made before (its coefficients are still in the model), `s` is the state it left, `x` the
solution of the corrected head equations. -/
def Model.refilter (m : Model) (geo : Geo) (inp : Inputs) (wk : Work) (cur : Hyd) (co : Coef ℝ) (s : Hyd)
    (a : FilterArgs) (x : ℕ → ℝ) : Hyd :=
  let H := clipHead m.z_inv m.max_depth x
  let u_o := a.u_o.getD (fun _ => 0)
  let u_w := a.u_w.getD (fun _ => 0)
  let u_p := a.u_p.getD (fun _ => 0)
  let y := sweptInternals m.g co m.ix m.min_depth m.max_depth_k
    (fun k => huk (m.endRec wk co k) (m.headCoef geo cur k) (H (m.Ju k)) (H (m.Jd k)))
    (fun k => hdk (m.endRec wk co k) (m.headCoef geo cur k) (H (m.Ju k)) (H (m.Jd k)))
    m.back wk.f wk.b ⟨s.h, s.Q⟩
  { H := H
    h := y.h
    Q := y.Q
    Qu := fun k => Quk (m.endRec wk co k) (m.headCoef geo cur k) (H (m.Ju k)) (H (m.Jd k))
    Qd := fun k => Qdk (m.endRec wk co k) (m.headCoef geo cur k) (H (m.Ju k)) (H (m.Jd k))
    Qo := fun o => orificeFlow m.g (geo.Ao o) (m.Co o) (H (m.Juo o)) (H (m.Jdo o)) (u_o o)
      (geo.V (m.Juo o)) (geo.V (m.Jdo o)) a.dt (m.orifice o)
    Qw := fun w => weirFlow (H (m.Juw w)) (H (m.Jdw w)) (u_w w) (m.weir w)
    Qp := fun p => pumpFlow (H (m.Jup p)) (H (m.Jdp p)) (u_p p) (m.pump p) }

end

end Pipedream.Step
