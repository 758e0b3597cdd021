import Verif.LinkProps
import Verif.SuperlinkProps
import Verif.ControlProps
import Verif.NetworkProps

/-!
# Model of one whole hydraulic step

`_setup_step` and `_solve_step` (superlink.py 4015–4083) with the numba kernels, composed from the
models of the single stages in the order of the code. The hydraulic geometry of the step (areas, widths,
hydraulic radii, storage areas and volumes, orifice areas, damping coefficients) is a parameter `Geo`:
theorems hold for every geometry, and `GeometryProps`/`StorageProps` show what the shapes deliver.
Default options are modelled: `bc_method='z'`, `method='b'` or `'f'` (`back`), no `exit_hydraulics`,
dense solve.
-/

namespace Pipedream.Step

open Pipedream.Sweep Pipedream.Link Pipedream.Superlink Pipedream.Control Pipedream.Network

noncomputable section

/-- Static data of a `SuperLink` model (superlink.py 281–745). -/
structure Model where
  g : ℝ
  /-- number of links -/
  N : ℕ
  /-- number of superjunctions -/
  M : ℕ
  ix : Idx
  nix : NodeIdx
  linkStart : ℕ → Bool
  linkEnd : ℕ → Bool
  bc : ℕ → Bool
  Ju : ℕ → ℕ
  Jd : ℕ → ℕ
  z_inv : ℕ → ℝ
  max_depth : ℕ → ℝ
  min_depth : ℝ
  max_depth_k : ℕ → ℝ
  dx : ℕ → ℝ
  n : ℕ → ℝ
  A_c : ℕ → ℝ
  C : ℕ → ℝ
  ctrl : ℕ → Bool
  method : ℕ → ℤ
  S_o : ℕ → ℝ
  A_S : ℕ → ℝ
  dx_uk : ℕ → ℝ
  dx_dk : ℕ → ℝ
  z_uk : ℕ → ℝ
  z_dk : ℕ → ℝ
  C_uk : ℕ → ℝ
  C_dk : ℕ → ℝ
  end_method : EndMethod
  back : Bool
  n_o : ℕ
  Juo : ℕ → ℕ
  Jdo : ℕ → ℕ
  orifice : ℕ → Orifice
  Co : ℕ → ℝ
  n_w : ℕ
  Juw : ℕ → ℕ
  Jdw : ℕ → ℕ
  weir : ℕ → Weir
  n_p : ℕ
  Jup : ℕ → ℕ
  Jdp : ℕ → ℕ
  pump : ℕ → Pump

/-- Hydraulic geometry of the current state (superlink.py 4026–4036). -/
structure Geo where
  A : ℕ → ℝ
  R : ℕ → ℝ
  B : ℕ → ℝ
  A_u : ℕ → ℝ
  B_u : ℕ → ℝ
  A_d : ℕ → ℝ
  B_d : ℕ → ℝ
  As : ℕ → ℝ
  V : ℕ → ℝ
  Ao : ℕ → ℝ
  sigma : ℕ → ℝ

/-- Hydraulic state (the arrays saved by `save_state`, superlink.py 3906–3928). -/
@[ext] structure Hyd where
  H : ℕ → ℝ
  h : ℕ → ℝ
  Q : ℕ → ℝ
  Qu : ℕ → ℝ
  Qd : ℕ → ℝ
  Qo : ℕ → ℝ
  Qw : ℕ → ℝ
  Qp : ℕ → ℝ

/-- Arrays that are re-used (overwritten in place) between steps. -/
structure Work where
  mats : Mats ℝ
  f : Fwd ℝ
  b : Bwd ℝ
  lo : ℕ → Lin
  lw : ℕ → Lin
  lp : ℕ → Lin

/-- Arguments of `step` (superlink.py 4085–4087). `H_bc = None` means the current heads (nsuperlink.py
1211–1212), missing inflows and control signals mean zero. -/
structure Inputs where
  dt : ℝ
  H_bc : Option (ℕ → ℝ)
  Q_in : ℕ → ℝ
  Q_0Ik : ℕ → ℝ
  u_o : ℕ → ℝ
  u_w : ℕ → ℝ
  u_p : ℕ → ℝ

variable (m : Model) (geo : Geo) (inp : Inputs) (wk : Work) (prev cur : Hyd)

/-- Inputs of `link_coeffs`; `prev` is the saved state, `cur` the current one (nsuperlink.py 735–736). -/
def Model.linkIn : LinkIn where
  dx := m.dx
  n := m.n
  Qprev := prev.Q
  Qnext := cur.Q
  A := geo.A
  R := geo.R
  A_c := m.A_c
  C := m.C
  ctrl := m.ctrl
  sigma := geo.sigma
  method := m.method
  S_o := m.S_o
  linkStart := m.linkStart
  linkEnd := m.linkEnd
  dt := inp.dt

/-- Inputs of `node_coeffs` (nsuperlink.py 762–794). -/
def Model.nodeIn : NodeIn where
  Q_0 := inp.Q_0Ik
  B := geo.B
  h := prev.h
  dx := m.dx
  A_S := m.A_S
  B_uk := geo.B_u
  B_dk := geo.B_d
  dx_uk := m.dx_uk
  dx_dk := m.dx_dk
  dt := inp.dt

/-- Head coefficients of superlink `k` (nsuperlink.py 851–957, `bc_method='z'`). -/
def Model.headCoef (k : ℕ) : HeadCoef ℝ :=
  headCoefZ m.g (cur.H (m.Ju k)) (cur.H (m.Jd k)) (cur.Qu k) (cur.Qd k) (m.C_uk k) (m.C_dk k)
    (geo.A_u k) (geo.A_d k) (m.z_uk k) (m.z_dk k)

variable (co : Coef ℝ)

/-- Forward and backward sweep of the step (superlink.py 4038–4039). -/
def Model.fwd : Fwd ℝ := sweptFwd m.g co m.ix wk.f

def Model.bwd : Bwd ℝ := sweptBwd m.g co m.ix wk.b

/-- Recurrence coefficients at the ends of superlink `k` (nsuperlink.py 991–1004). -/
def Model.endRec (k : ℕ) : EndRec ℝ :=
  Superlink.endRec m.end_method (co.slice (m.ix.i_1k k) (m.ix.I_1k k)) (m.ix.nk k)
    (fun j => (m.fwd wk co).U (m.ix.I_1k k + j)) (fun j => (m.fwd wk co).V (m.ix.I_1k k + j))
    (fun j => (m.fwd wk co).W (m.ix.I_1k k + j)) (fun j => (m.bwd wk co).X (m.ix.I_1k k + j))
    (fun j => (m.bwd wk co).Y (m.ix.I_1k k + j)) (fun j => (m.bwd wk co).Z (m.ix.I_1k k + j))

/-- Linearised orifice relations (nsuperlink.py 1037–1067). -/
def Model.oLin (o : ℕ) : Lin :=
  orificeLin (wk.lo o) m.g (cur.Qo o) (geo.Ao o) (m.Co o) (cur.H (m.Juo o)) (cur.H (m.Jdo o)) (inp.u_o o)
    (m.orifice o)

/-- Linearised weir relations (nsuperlink.py 1069–1098). -/
def Model.wLin (w : ℕ) : Lin :=
  weirLin (wk.lw w) (cur.Qw w) (cur.H (m.Juw w)) (cur.H (m.Jdw w)) (inp.u_w w) (m.weir w)

/-- Linearised pump relations (nsuperlink.py 1100–1131). -/
def Model.pLin (p : ℕ) : Lin :=
  pumpLin (wk.lp p) (cur.Qp p) (cur.H (m.Jup p)) (cur.H (m.Jdp p)) (inp.u_p p) (m.pump p)

/-- The network equations handed to `sparse_matrix_equations` (nsuperlink.py 1133–1295). -/
def Model.net : Net ℝ where
  M := m.M
  bc := m.bc
  As := geo.As
  links :=
    { n := m.ix.NK, Ju := m.Ju, Jd := m.Jd
      alpha_u := fun k => alphaUk (m.endRec wk co k) (m.headCoef geo cur k)
      beta_u := fun k => betaUk (m.endRec wk co k) (m.headCoef geo cur k)
      chi_u := fun k => chiUk (m.endRec wk co k) (m.headCoef geo cur k)
      alpha_d := fun k => alphaDk (m.endRec wk co k) (m.headCoef geo cur k)
      beta_d := fun k => betaDk (m.endRec wk co k) (m.headCoef geo cur k)
      chi_d := fun k => chiDk (m.endRec wk co k) (m.headCoef geo cur k)
      xi_u := fun k => xi (m.dx_uk k) (geo.B_u k) (theta (cur.H (m.Ju k)) (m.z_uk k)) inp.dt
      xi_d := fun k => xi (m.dx_dk k) (geo.B_d k) (theta (cur.H (m.Jd k)) (m.z_dk k)) inp.dt }
  orifices :=
    { n := m.n_o, Ju := m.Juo, Jd := m.Jdo
      alpha := fun o => (m.oLin geo inp wk cur o).alpha
      beta := fun o => (m.oLin geo inp wk cur o).beta
      chi := fun o => (m.oLin geo inp wk cur o).chi }
  weirs :=
    { n := m.n_w, Ju := m.Juw, Jd := m.Jdw
      alpha := fun o => (m.wLin inp wk cur o).alpha
      beta := fun o => (m.wLin inp wk cur o).beta
      chi := fun o => (m.wLin inp wk cur o).chi }
  pumps :=
    { n := m.n_p, Ju := m.Jup, Jd := m.Jdp
      alpha := fun o => (m.pLin inp wk cur o).alpha
      beta := fun o => (m.pLin inp wk cur o).beta
      chi := fun o => (m.pLin inp wk cur o).chi }

/-- Matrices of the step. -/
def Model.mats : Mats ℝ := assembleMats (m.net geo inp wk cur co) inp.dt wk.mats

/-- Left-hand side of the head equations. -/
def Model.lhs : ℕ → ℕ → ℝ := systemMatrix (m.net geo inp wk cur co) (m.mats geo inp wk cur co)

/-- Right-hand side of the head equations; previous heads come from the saved state
(nsuperlink.py 1204, 1211–1212, 1282–1286). -/
def Model.rhs : ℕ → ℝ :=
  assembleB (m.net geo inp wk cur co) inp.dt prev.H inp.Q_in (inp.H_bc.getD cur.H)

/-- New state after the head solve returned `x` (superlink.py 4057–4081). -/
def Model.advance (x : ℕ → ℝ) : Hyd :=
  let H := clipHead m.z_inv m.max_depth x
  let s := sweptInternals m.g co m.ix m.min_depth m.max_depth_k
    (fun k => huk (m.endRec wk co k) (m.headCoef geo cur k) (H (m.Ju k)) (H (m.Jd k)))
    (fun k => hdk (m.endRec wk co k) (m.headCoef geo cur k) (H (m.Ju k)) (H (m.Jd k)))
    m.back wk.f wk.b ⟨cur.h, cur.Q⟩
  { H := H
    h := s.h
    Q := s.Q
    Qu := fun k => Quk (m.endRec wk co k) (m.headCoef geo cur k) (H (m.Ju k)) (H (m.Jd k))
    Qd := fun k => Qdk (m.endRec wk co k) (m.headCoef geo cur k) (H (m.Ju k)) (H (m.Jd k))
    Qo := fun o => orificeFlow m.g (geo.Ao o) (m.Co o) (H (m.Juo o)) (H (m.Jdo o)) (inp.u_o o)
      (geo.V (m.Juo o)) (geo.V (m.Jdo o)) inp.dt (m.orifice o)
    Qw := fun w => weirFlow (H (m.Juw w)) (H (m.Jdw w)) (inp.u_w w) (m.weir w)
    Qp := fun p => pumpFlow (H (m.Jup p)) (H (m.Jdp p)) (inp.u_p p) (m.pump p) }

/-- Scratch arrays after the step. -/
def Model.work : Work where
  mats := m.mats geo inp wk cur co
  f := m.fwd wk co
  b := m.bwd wk co
  lo := m.oLin geo inp wk cur
  lw := m.wLin inp wk cur
  lp := m.pLin inp wk cur

/-- One pass `_setup_step` + `_solve_step` from current state `cur` with saved state `prev`: the
coefficient stage raised no exception and produced `co`, the solver returned `x`. -/
structure Pass (x : ℕ → ℝ) : Prop where
  coefs : StepCoefs m.g m.N (m.linkIn geo inp prev cur) (m.nodeIn geo inp prev) m.nix co
  solve : Solves m.M (m.lhs geo inp wk cur co) (m.rhs geo inp wk prev cur co) x

/-! ### Assumptions on the model -/

/-- The tables are consistent: index layout, junction tables, superjunction numbers in range. -/
structure Model.Consistent : Prop where
  layout : Layout m.ix.NK m.ix.nk m.ix.I_1k m.ix.i_1k
  inN : ∀ k, k < m.ix.NK → m.ix.i_1k k + m.ix.nk k ≤ m.N
  nodes : ∀ k, k < m.ix.NK → NodeIdxSpec m.nix (m.ix.nk k) (m.ix.I_1k k) (m.ix.i_1k k) k
  Ju : ∀ k, k < m.ix.NK → m.Ju k < m.M
  Jd : ∀ k, k < m.ix.NK → m.Jd k < m.M
  Juo : ∀ k, k < m.n_o → m.Juo k < m.M
  Jdo : ∀ k, k < m.n_o → m.Jdo k < m.M
  Juw : ∀ k, k < m.n_w → m.Juw k < m.M
  Jdw : ∀ k, k < m.n_w → m.Jdw k < m.M
  Jup : ∀ k, k < m.n_p → m.Jup k < m.M
  Jdp : ∀ k, k < m.n_p → m.Jdp k < m.M

/-- Positive lengths, roughness, step size, non-negative loss coefficients and control settings. -/
structure PhysicalStep : Prop where
  g_pos : 0 < m.g
  dt_pos : 0 < inp.dt
  A_pos : ∀ i, i < m.N → 0 < geo.A i
  R_pos : ∀ i, i < m.N → 0 < geo.R i
  B_nonneg : ∀ i, i < m.N → 0 ≤ geo.B i
  sigma_pos : ∀ i, i < m.N → 0 < geo.sigma i
  n_pos : ∀ i, i < m.N → 0 < m.n i
  dx_pos : ∀ i, i < m.N → 0 < m.dx i
  C_nonneg : ∀ i, i < m.N → 0 ≤ m.C i
  AS_nonneg : ∀ I, 0 ≤ m.A_S I
  Bu : ∀ k, k < m.ix.NK → 0 ≤ geo.B_u k
  Bd : ∀ k, k < m.ix.NK → 0 ≤ geo.B_d k
  dxu : ∀ k, k < m.ix.NK → 0 ≤ m.dx_uk k
  dxd : ∀ k, k < m.ix.NK → 0 ≤ m.dx_dk k
  Cu : ∀ k, k < m.ix.NK → 0 ≤ m.C_uk k
  Cd : ∀ k, k < m.ix.NK → 0 ≤ m.C_dk k
  As : ∀ i, i < m.M → m.bc i = false → 0 < geo.As i
  u_p : ∀ p, p < m.n_p → 0 ≤ inp.u_p p
  b_p : ∀ p, p < m.n_p → 0 ≤ (m.pump p).b

end

end Pipedream.Step
