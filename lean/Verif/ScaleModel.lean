import Verif.WholeModel

/-!
# Change of scale of a hydraulic model (specification)

A geometrically similar model, `L` times as long in all directions and run at times multiplied by `1 / w`.
Gravity is multiplied by `L w²`; it is unchanged, as the code requires (`g = 9.81` is a constant), exactly
for Froude's law `w = 1 / √L` (`Scale.froude`). With other values of `w` the same definitions describe one
model written down in other units of length and time.

Nothing here occurs in the code: these definitions say what "the same model at another scale" means, by
giving each quantity the power of `L` and `w` that its dimension dictates.
-/

namespace Pipedream.Step

open Pipedream.Sweep Pipedream.Link Pipedream.Superlink Pipedream.Control Pipedream.Network
open Pipedream.Geometry Pipedream.Interp

noncomputable section

/-- Lengths are multiplied by `L`, times by `1 / w`. -/
structure Scale where
  L : ℝ
  w : ℝ
  hL : 0 < L
  hw : 0 < w

namespace Scale

/-- Froude's law: times grow like the square root of lengths. -/
def froude (L : ℝ) (hL : 0 < L) : Scale := ⟨L, (Real.sqrt L)⁻¹, hL, inv_pos.mpr (Real.sqrt_pos.mpr hL)⟩

variable (u : Scale)

/-- Factor of accelerations. -/
def acc : ℝ := u.L * u.w ^ 2

/-- Factor of velocities. -/
def vel : ℝ := u.L * u.w

/-- Factor of discharge per unit of head. -/
def con : ℝ := u.L ^ 2 * u.w

/-- Factor of discharges. -/
def dis : ℝ := u.L ^ 3 * u.w

/-- An array of quantities with factor `c`. -/
def arr (c : ℝ) (f : ℕ → ℝ) : ℕ → ℝ := fun i => c * f i

/-- Roughness: Manning's coefficient has the dimension `T / L^(1/3)`, the Hazen–Williams coefficient
`L^0.37 / T` (nsuperlink.py 2036–2044). -/
def rough (method : ℤ) (n : ℝ) : ℝ :=
  if method = 0 then (u.L ^ (1 / 3 : ℝ))⁻¹ * u.w⁻¹ * n
  else if method = 1 then u.L ^ (0.37 : ℝ) * u.w * n
  else u.L * n

def orifice (o : Orifice) : Orifice := ⟨u.L * o.z_o, u.L * o.z_inv, o.tau, u.L * o.y_max, o.unidir⟩

/-- Weir coefficients have the dimension `L^(1/2) / T`, the side slope has none. -/
def weir (x : Weir) : Weir :=
  ⟨u.L * x.z_w, u.L * x.z_inv, u.L * x.y_max, u.L * x.L, x.s, Real.sqrt u.L * u.w * x.Cwr,
    Real.sqrt u.L * u.w * x.Cwt⟩

/-- Pump curve `ΔH = a - b Q^c`. -/
def pump (p : Pump) : Pump :=
  ⟨u.L * p.z_p, u.L * p.z_inv, u.L * p.dHmax, u.L * p.dHmin, u.L * p.a, u.L * (u.dis ^ p.c)⁻¹ * p.b, p.c⟩

/-- The model at the other scale. Slopes, loss coefficients, discharge coefficients of orifices are
numbers. -/
def model (m : Model) : Model :=
  { m with
    g := u.acc * m.g
    z_inv := arr u.L m.z_inv
    max_depth := arr u.L m.max_depth
    min_depth := u.L * m.min_depth
    max_depth_k := arr u.L m.max_depth_k
    dx := arr u.L m.dx
    n := fun i => u.rough (m.method i) (m.n i)
    A_c := arr (u.L ^ 2) m.A_c
    A_S := arr (u.L ^ 2) m.A_S
    dx_uk := arr u.L m.dx_uk
    dx_dk := arr u.L m.dx_dk
    z_uk := arr u.L m.z_uk
    z_dk := arr u.L m.z_dk
    orifice := fun o => u.orifice (m.orifice o)
    weir := fun x => u.weir (m.weir x)
    pump := fun p => u.pump (m.pump p) }

/-- Parameters of a section: heights and widths are lengths; slot widths relative to the section (circle,
closed rectangle, force main) and side slopes are numbers (ngeometry.py 22–1112). -/
def gp : Shape → GP → GP
  | .circular, p => { p with g1 := u.L * p.g1 }
  | .rectClosed, p => { p with g1 := u.L * p.g1, g2 := u.L * p.g2 }
  | .rectOpen, p => { p with g1 := u.L * p.g1, g2 := u.L * p.g2 }
  | .triangular, p => { p with g1 := u.L * p.g1 }
  | .trapezoidal, p => { p with g1 := u.L * p.g1, g2 := u.L * p.g2 }
  | .parabolic, p => { p with g1 := u.L * p.g1, g2 := u.L * p.g2 }
  | .elliptical, p => { p with g1 := u.L * p.g1, g2 := u.L * p.g2 }
  | .wide, p => { p with g1 := u.L * p.g1, g2 := u.L * p.g2 }
  | .forceMain, p => { p with g1 := u.L * p.g1 }
  | .floodplain, p => { p with g1 := u.L * p.g1, g2 := u.L * p.g2, g3 := u.L * p.g3, g7 := u.L * p.g7 }

def sect : Section → Section
  | .regular s p => .regular s (u.gp s p)
  | .irregular n zs As Bs Rs =>
    .irregular n (arr u.L zs) (arr (u.L ^ 2) As) (arr u.L Bs) (arr u.L Rs)

/-- Storage curves `A = a h^b + c`, or tables. -/
def storage : Storage → Storage
  | .functional a b c => .functional (u.L ^ 2 * (u.L ^ b)⁻¹ * a) b (u.L ^ 2 * c)
  | .tabular n hs As Vs => .tabular n (arr u.L hs) (arr (u.L ^ 2) As) (arr (u.L ^ 3) Vs)

/-- The constant `eps` of ngeometry.py 19 and the elliptic integral are what they were. -/
def plan (P : Plan) : Plan :=
  { P with
    sec := fun i => u.sect (P.sec i)
    storage := fun j => u.storage (P.storage j)
    oGP := fun o => u.gp (P.oShape o) (P.oGP o) }

def hyd (s : Hyd) : Hyd :=
  ⟨arr u.L s.H, arr u.L s.h, arr u.dis s.Q, arr u.dis s.Qu, arr u.dis s.Qd, arr u.dis s.Qo, arr u.dis s.Qw,
    arr u.dis s.Qp⟩

def inputs (inp : Inputs) : Inputs where
  dt := u.w⁻¹ * inp.dt
  H_bc := inp.H_bc.map (arr u.L)
  Q_in := arr u.dis inp.Q_in
  Q_0Ik := arr u.dis inp.Q_0Ik
  u_o := inp.u_o
  u_w := inp.u_w
  u_p := inp.u_p

def lin (l : Lin) : Lin := ⟨u.con * l.alpha, u.con * l.beta, u.dis * l.chi⟩

def fwd (f : Fwd ℝ) : Fwd ℝ := ⟨arr u.vel f.T, arr u.con f.U, arr u.dis f.V, arr u.con f.W⟩

def bwd (b : Bwd ℝ) : Bwd ℝ := ⟨arr u.vel b.O, arr u.con b.X, arr u.dis b.Y, arr u.con b.Z⟩

/-- Rows of fixed heads say `H = H_bc`, the others balance discharges. -/
def mat (bc : ℕ → Bool) (A : ℕ → ℕ → ℝ) : ℕ → ℕ → ℝ := fun r c => if bc r then A r c else u.con * A r c

def mats (bc : ℕ → Bool) (A : Mats ℝ) : Mats ℝ := ⟨u.mat bc A.A, u.mat bc A.O, u.mat bc A.W, u.mat bc A.P⟩

def work (bc : ℕ → Bool) (x : Work) : Work :=
  ⟨u.mats bc x.mats, u.fwd x.f, u.bwd x.b, fun i => u.lin (x.lo i), fun i => u.lin (x.lw i),
    fun i => u.lin (x.lp i)⟩

/-- The switches are numbers, orifice areas are areas. -/
def hidden (h : Hidden) : Hidden := ⟨h.thu, h.thd, arr (u.L ^ 2) h.Ao⟩

def obj (bc : ℕ → Bool) (o : Obj) : Obj := ⟨u.hyd o.saved, u.hyd o.cur, u.work bc o.wk, u.hidden o.hid⟩

def coef (c : Coef ℝ) : Coef ℝ :=
  ⟨arr u.vel c.a, arr u.vel c.b, arr u.vel c.c, arr (u.L ^ 4 * u.w ^ 2) c.P, arr (u.L ^ 2) c.A, arr u.con c.E,
    arr u.dis c.D⟩

def geo (x : Geo) : Geo :=
  ⟨arr (u.L ^ 2) x.A, arr u.L x.R, arr u.L x.B, arr (u.L ^ 2) x.A_u, arr u.L x.B_u, arr (u.L ^ 2) x.A_d,
    arr u.L x.B_d, arr (u.L ^ 2) x.As, arr (u.L ^ 3) x.V, arr (u.L ^ 2) x.Ao, x.sigma⟩

def endRec (r : EndRec ℝ) : EndRec ℝ :=
  ⟨u.con * r.X, u.dis * r.Y, u.con * r.Z, u.con * r.U, u.dis * r.V, u.con * r.W⟩

/-- `h = κ Q + λ H + μ`. -/
def headCoef (k : HeadCoef ℝ) : HeadCoef ℝ :=
  ⟨u.con⁻¹ * k.kappa_u, k.lam_u, u.L * k.mu_u, u.con⁻¹ * k.kappa_d, k.lam_d, u.L * k.mu_d⟩

/-- A step and its arguments. -/
def call (q : Bool × Inputs) : Bool × Inputs := (q.1, u.inputs q.2)

end Scale

end

end Pipedream.Step
