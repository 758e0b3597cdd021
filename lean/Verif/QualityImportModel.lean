import Verif.QualityModel
import Verif.GeometryModel
import Verif.StepModel

/-!
# Import of the hydraulic states by the water-quality model

`/repo/pipedream_solver/nquality.py` 228–279 (`import_hydraulic_states`), 1647–1761 (`geometry_WQ1`,
`geometry_WQ2`, `Q_ik_up_dn`) and the first lines of `step` (980–988). The hydraulic model is `Step.Model`
with its geometry `Geo`, its saved state `prev` (`hydraulics.states`) and its current state `next`.
-/

namespace Pipedream.Quality

open Pipedream.Link (PyErr)
open Pipedream.Step (Model Geo Hyd)

noncomputable section

/-- What the quality model reads besides `Model`, `Geo` and `Hyd`: the geometry codes, the vertical
dimension `_g1_ik` of the links and the junction upstream of a link (nquality.py 251–253, 257). -/
structure Shapes where
  code : ℕ → ℤ
  g1 : ℕ → ℝ
  Ik : ℕ → ℕ

/-- Flow area of a link of width `B` between depths `h1` and `h2` — `geometry_WQ1`, nquality.py 1648–1664,
with the element-wise array statements written for one element. The circular branch is the body of
`Circular_A_ik` (ngeometry.py 22–50). The code that selects the formula is that of link 0, for every link.
The open rectangular branch limits the depth neither from below nor at the section height. -/
def areaWQ (code0 : ℤ) (d B h1 h2 : ℝ) : Except PyErr ℝ :=
  if code0 = 1 then .ok (Geometry.circularA h1 h2 d)
  else if code0 = 3 then .ok (B * 0.5 * (h1 + h2))
  else .error .valueError

/-- Flow at the upstream face — `Q_ik_up_dn`, nquality.py 1755–1758; also 1673, 1711. -/
def faceUp (Q B dx dt h h_prev : ℝ) : ℝ := Q + 0.5 * B * dx * (h - h_prev) / dt

/-- Flow at the downstream face — `Q_ik_up_dn`, nquality.py 1759–1760; also 1675–1676, 1715. -/
def faceDn (Q B dx dt h h_prev : ℝ) : ℝ := Q - 0.5 * B * dx * (h - h_prev) / dt

/-- The areas of a link or end stretch by the formula `f` that passed the shape test. -/
def areaBy (code0 : ℤ) (d B h1 h2 : ℝ) : ℝ :=
  if code0 = 1 then Geometry.circularA h1 h2 d else B * 0.5 * (h1 + h2)

/-- The imported states when the shape test passed — nquality.py 228–279 with 1666–1752. The diameter of
the end stretches is `_g1_ik[k]`, i.e. that of *link* number `k` (1679, 1717); their depth at the
superjunction is measured from the superjunction invert (1680, 1718), not from the pipe invert. Both
volumes of a superjunction use the current surface area (243–246). -/
def hydro (m : Model) (sh : Shapes) (geo : Geo) (dt : ℝ) (prev next : Hyd) : Hydro ℝ where
  dt := dt
  Q_up i := faceUp (next.Q i) (geo.B i) (m.dx i) dt (next.h (sh.Ik i)) (prev.h (sh.Ik i))
  Q_dn i := faceDn (next.Q i) (geo.B i) (m.dx i) dt (next.h (sh.Ik i + 1)) (prev.h (sh.Ik i + 1))
  A i := areaBy (sh.code 0) (sh.g1 i) (geo.B i) (next.h (sh.Ik i)) (next.h (sh.Ik i + 1))
  A_prev := geo.A
  dx := m.dx
  A_S := m.A_S
  h := next.h
  h_prev := prev.h
  Qu_up k := faceUp (next.Qu k) (geo.B_u k) (m.dx_uk k) dt (next.H (m.Ju k)) (prev.H (m.Ju k))
  Qu_dn k := faceDn (next.Qu k) (geo.B_u k) (m.dx_uk k) dt (next.h (m.ix.I_1k k)) (prev.h (m.ix.I_1k k))
  A_u k := areaBy (sh.code 0) (sh.g1 k) (geo.B_u k) (next.H (m.Ju k) - m.z_inv (m.Ju k)) (next.h (m.ix.I_1k k))
  A_u_prev k := areaBy (sh.code 0) (sh.g1 k) (geo.B_u k) (prev.H (m.Ju k) - m.z_inv (m.Ju k))
    (prev.h (m.ix.I_1k k))
  dx_u := m.dx_uk
  Qd_up k := faceUp (next.Qd k) (geo.B_d k) (m.dx_dk k) dt (next.h (m.ix.I_1k k + m.ix.nk k))
    (prev.h (m.ix.I_1k k + m.ix.nk k))
  Qd_dn k := faceDn (next.Qd k) (geo.B_d k) (m.dx_dk k) dt (next.H (m.Jd k)) (prev.H (m.Jd k))
  A_d k := areaBy (sh.code 0) (sh.g1 k) (geo.B_d k) (next.H (m.Jd k) - m.z_inv (m.Jd k))
    (next.h (m.ix.I_1k k + m.ix.nk k))
  A_d_prev k := areaBy (sh.code 0) (sh.g1 k) (geo.B_d k) (prev.H (m.Jd k) - m.z_inv (m.Jd k))
    (prev.h (m.ix.I_1k k + m.ix.nk k))
  dx_d := m.dx_dk
  V j := geo.As j * (next.H j - m.z_inv j)
  V_prev j := geo.As j * (prev.H j - m.z_inv j)
  Qo := next.Qo
  Qw := next.Qw
  Qp := next.Qp

/-- `import_hydraulic_states(_dt)` — nquality.py 228–279. `_dt = None` reaches the compiled
`Q_ik_up_dn(…, _dt, …)`, whose division of an array by `None` has no implementation (numba's
`TypingError`, here `typeError`). The link areas are computed first, so an unsupported first link is reported before a missing `dt`. A zero `dt` raises in the scalar
division of `geometry_WQ2` when there is a superlink. -/
def importStates (m : Model) (sh : Shapes) (geo : Geo) (dt : Option ℝ) (prev next : Hyd) :
    Except PyErr (Hydro ℝ) := do
  let _ ← areaWQ (sh.code 0) 1 1 0 0
  match dt with
  | none => .error .typeError
  | some dt =>
    if dt = 0 ∧ 0 < m.ix.NK then .error .zeroDivision
    else .ok (hydro m sh geo dt prev next)

/-- The part of `step` that fixes the step size — nquality.py 980–982: the import is called with the
argument as given, `None` is only replaced by `self._dt = hydraulics.t - states['t']` afterwards. -/
def beginStep (m : Model) (sh : Shapes) (geo : Geo) (dt : Option ℝ) (elapsed : ℝ) (prev next : Hyd) :
    Except PyErr (Hydro ℝ × ℝ) := do
  let y ← importStates m sh geo dt prev next
  return (y, dt.getD elapsed)

/-- Index arrays taken over from the hydraulic model (nquality.py 129–158); the fixed superjunctions of
the quality model are its own (104). -/
def wiring (m : Model) (bc : ℕ → Bool) : Wiring where
  M := m.M
  ix := m.ix
  nix := m.nix
  bc := bc
  Ju := m.Ju
  Jd := m.Jd
  n_o := m.n_o
  Juo := m.Juo
  Jdo := m.Jdo
  n_w := m.n_w
  Juw := m.Juw
  Jdw := m.Jdw
  n_p := m.n_p
  Jup := m.Jup
  Jdp := m.Jdp

/-- Arguments of the quality step when the flows are those of the hydraulic step (nquality.py 983–986). -/
def inputs (inp : Step.Inputs) (c_bc : Option (ℕ → ℝ)) (c_0j c_0I : ℕ → ℝ) : Inputs ℝ where
  c_bc := c_bc
  c_0j := c_0j
  Q_0j := inp.Q_in
  c_0I := c_0I
  Q_0I := inp.Q_0Ik

end

end Pipedream.Quality
