import Verif.StepModel
import Verif.GeometryModel
import Verif.StorageModel
import Verif.DiagnosticsModel

/-!
# Model of a step with its own hydraulic geometry

`StepModel` takes the geometry of a pass as a parameter. Here the geometry is computed from the state by
`link_hydraulic_geometry`, `upstream_hydraulic_geometry`, `downstream_hydraulic_geometry`,
`orifice_hydraulic_geometry`, `compute_storage_areas`, `compute_storage_volumes` and
`compute_flow_regime`, in the order of `_setup_step` (superlink.py 4025–4033).

Two arrays carry information from one pass to the next without being part of the saved state
(`save_state`/`load_state`, superlink.py 3906–3953): the switches `_theta_uk`, `_theta_dk`, which the end
geometry reads *before* the head coefficients rewrite them, and the orifice areas `_Ao`, of which
floodplain orifices keep the old value. They are the structure `Hidden`.
-/

namespace Pipedream.Step

open Pipedream.Sweep Pipedream.Link Pipedream.Superlink Pipedream.Control Pipedream.Network
open Pipedream.Geometry Pipedream.Interp

noncomputable section

/-- Cross section of a link: a regular shape with its parameters, or a table over depth
(`_is_irregular`, nsuperlink.py 1885–1915; `Pe` of a table is not used by a step). -/
inductive Section
  | regular (s : Shape) (p : GP)
  | irregular (n : ℕ) (zs As Bs Rs : ℕ → ℝ)

/-- Flow area — nsuperlink.py 1698–1773 (regular), 1910 (irregular). -/
def Section.A : Section → ℝ → ℝ → ℝ
  | .regular s p, h1, h2 => area s p h1 h2
  | .irregular n zs As _ _, h1, h2 => interpolate .linear n zs As ((h1 + h2) / 2)

/-- Top width — nsuperlink.py 1698–1773, 1911. -/
def Section.B : Section → ℝ → ℝ → ℝ
  | .regular s p, h1, h2 => topWidth s p h1 h2
  | .irregular n zs _ Bs _, h1, h2 => interpolate .linear n zs Bs ((h1 + h2) / 2)

/-- Hydraulic radius of a link — nsuperlink.py 1688–1773, 1912. `ell` is the wetted perimeter of an ellipse,
`Elliptical.Pe_ik` of geometry.py with `scipy.special.ellipeinc` (`handle_elliptical_perimeter`,
nsuperlink.py 1688–1696): an uninterpreted function of section and depths. -/
def Section.R (eps : ℝ) (ell : GP → ℝ → ℝ → ℝ) : Section → ℝ → ℝ → ℝ
  | .regular s p, h1, h2 => hydRadius (area s p h1 h2) (perimeter eps (ell p h1 h2) s p h1 h2)
  | .irregular n zs _ _ Rs, h1, h2 => interpolate .linear n zs Rs ((h1 + h2) / 2)

/-- Storage curve of a superjunction. -/
inductive Storage
  | functional (a b c : ℝ)
  | tabular (n : ℕ) (hs As Vs : ℕ → ℝ)

/-- `compute_storage_areas` — nsuperlink.py 666–697. -/
def Storage.A : Storage → ℝ → ℝ
  | .functional a b c, h => functionalArea a b c h
  | .tabular n hs As _, h => tabularArea n hs As h

/-- `compute_storage_volumes` — nsuperlink.py 1615–1649. -/
def Storage.V : Storage → ℝ → ℝ
  | .functional a b c, h => functionalVolume a b c h
  | .tabular n hs As Vs, h => tabularVolume n hs As Vs h

/-- What the geometry is computed from: sections of the links, upstream junction `_Ik` of each link,
storage curves, orifice openings, `inertial_damping`. -/
structure Plan where
  eps : ℝ
  ell : GP → ℝ → ℝ → ℝ
  sec : ℕ → Section
  Ik : ℕ → ℕ
  storage : ℕ → Storage
  oShape : ℕ → Shape
  oGP : ℕ → GP
  damp : Bool

/-- Arrays which influence the next pass but are not saved by `save_state`. -/
structure Hidden where
  thu : ℕ → ℝ
  thd : ℕ → ℝ
  Ao : ℕ → ℝ

/-- A fresh object: `_theta_uk = _theta_dk = 1` (superlink.py 701–702), orifice areas as given in the table
(`_Ao = copy(_Ao_max)`, superlink.py 510–511). -/
def Hidden.fresh (Amax : ℕ → ℝ) : Hidden := ⟨fun _ => 1, fun _ => 1, Amax⟩

/-- `h_e` of an orifice — nsuperlink.py 655–658; `z_inv` of the orifice record is `_z_inv_j[_J_uo]`. -/
def Model.orificeDepth (m : Model) (s : Hyd) (o : ℕ) : ℝ :=
  max (s.H (m.Juo o) - (m.orifice o).z_inv - (m.orifice o).z_o)
    (s.H (m.Jdo o) - (m.orifice o).z_inv - (m.orifice o).z_o)

/-- An array of length `n` (the model keeps 0 beyond it). -/
def upTo (n : ℕ) (f : ℕ → ℝ) : ℕ → ℝ := fun i => if i < n then f i else 0

/-- Hydraulic geometry of a pass in state `s` — superlink.py 4025–4033. The end geometry
(nsuperlink.py 1785–1853, 1930–1949) pairs the depth of the end junction with
`_theta_bk[k] * (H_j[j] - _z_inv_bk[k])`, with the switch left by the pass before. `Ao` are the orifice
areas of this pass. -/
def Model.geoOf (m : Model) (P : Plan) (hid : Hidden) (Ao : ℕ → ℝ) (s : Hyd) : Geo where
  A := fun i => (P.sec i).A (s.h (P.Ik i)) (s.h (P.Ik i + 1))
  R := fun i => (P.sec i).R P.eps P.ell (s.h (P.Ik i)) (s.h (P.Ik i + 1))
  B := fun i => (P.sec i).B (s.h (P.Ik i)) (s.h (P.Ik i + 1))
  A_u := upTo m.ix.NK fun k =>
    (P.sec (m.ix.i_1k k)).A (s.h (m.ix.I_1k k)) (hid.thu k * (s.H (m.Ju k) - m.z_uk k))
  B_u := upTo m.ix.NK fun k =>
    (P.sec (m.ix.i_1k k)).B (s.h (m.ix.I_1k k)) (hid.thu k * (s.H (m.Ju k) - m.z_uk k))
  A_d := upTo m.ix.NK fun k => (P.sec (m.ix.i_1k k + m.ix.nk k - 1)).A (s.h (m.ix.I_1k k + m.ix.nk k))
    (hid.thd k * (s.H (m.Jd k) - m.z_dk k))
  B_d := upTo m.ix.NK fun k => (P.sec (m.ix.i_1k k + m.ix.nk k - 1)).B (s.h (m.ix.I_1k k + m.ix.nk k))
    (hid.thd k * (s.H (m.Jd k) - m.z_dk k))
  As := upTo m.M fun j => (P.storage j).A (storageDepth (s.H j) (m.z_inv j) m.min_depth)
  V := upTo m.M fun j => (P.storage j).V (storageDepth (s.H j) (m.z_inv j) m.min_depth)
  Ao := upTo m.n_o Ao
  sigma := fun i => if P.damp then
      Diag.damping m.g (s.Q i) ((P.sec i).A (s.h (P.Ik i)) (s.h (P.Ik i + 1)))
        ((P.sec i).B (s.h (P.Ik i)) (s.h (P.Ik i + 1)))
    else 1

/-- The switches computed by the head coefficients of a pass — nsuperlink.py 887–888, 941–942. -/
def Model.nextHidden (m : Model) (Ao : ℕ → ℝ) (s : Hyd) : Hidden where
  thu := upTo m.ix.NK fun k => theta (s.H (m.Ju k)) (m.z_uk k)
  thd := upTo m.ix.NK fun k => theta (s.H (m.Jd k)) (m.z_dk k)
  Ao := upTo m.n_o Ao

/-- A `SuperLink` object: saved state, current state, scratch arrays, hidden arrays. -/
structure Obj where
  saved : Hyd
  cur : Hyd
  wk : Work
  hid : Hidden

/-- One call `_setup_step` + `_solve_step` (superlink.py 4015–4083) with its own geometry: no orifice
raised, the coefficient stage raised nothing, the solver returned `x`. -/
def Calls1 (m : Model) (P : Plan) (first : Bool) (inp : Inputs) (o o' : Obj) : Prop :=
  ∃ Ao co x,
    (∀ a, a < m.n_o →
      orificeArea (o.hid.Ao a) (P.oShape a) (P.oGP a) (m.orificeDepth o.cur a) (inp.u_o a) = .ok (Ao a)) ∧
    Pass m (m.geoOf P o.hid Ao o.cur) inp o.wk (if first then o.cur else o.saved) o.cur co x ∧
    o' = ⟨if first then o.cur else o.saved, m.advance (m.geoOf P o.hid Ao o.cur) inp o.wk o.cur co x,
      m.work (m.geoOf P o.hid Ao o.cur) inp o.wk o.cur co, m.nextHidden Ao o.cur⟩

/-- A sequence of calls. -/
def History (m : Model) (P : Plan) : List (Bool × Inputs) → Obj → Obj → Prop
  | [], o, o' => o' = o
  | q :: rest, o, o' => ∃ o1, Calls1 m P q.1 q.2 o o1 ∧ History m P rest o1 o'

/-- `load_state(s)` — superlink.py 3930–3953: the hydraulic arrays are replaced, hidden arrays stay
(the geometry it recomputes is recomputed again at the start of the next step). The saved state
`self.states` is not touched. -/
def Obj.load (o : Obj) (s : Hyd) : Obj := { o with cur := s }

end

end Pipedream.Step
