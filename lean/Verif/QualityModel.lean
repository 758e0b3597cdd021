import Verif.NetworkModel
import Verif.LinkModel
import Verif.SweepProps

/-!
# Model of the water-quality solver

`/repo/pipedream_solver/nquality.py`: coefficients, sweeps, boundary coefficients, superjunction system,
boundary states, internal solve and `step`. Scalars are elements of a linear ordered field (exact
arithmetic). The hydraulic states read by `import_hydraulic_states` (228–279) are the structure `Hydro`;
`QualityImport` models how they are computed from the hydraulic model.
-/

namespace Pipedream.Quality

open Pipedream.Network Pipedream.Link Pipedream.Sweep

variable {K : Type*} [Field K] [LinearOrder K]

/-! ### Scalar coefficients -/

/-- `(Q > 0).astype(float)` — nquality.py 372–377, 454–459. -/
def omegaGt (Q : K) : K := if 0 < Q then 1 else 0

/-- `(Q >= 0).astype(float)` — nquality.py 694–695, 707, 713, 719. -/
def omegaGe (Q : K) : K := if 0 ≤ Q then 1 else 0

/-- `alpha_ik` — nquality.py 1104–1109. -/
def alphaIk (Q_up om_up dx D A : K) : K := -Q_up * om_up + -2 * D * A / dx

/-- `beta_ik` — nquality.py 1111–1119. -/
def betaIk (dt D A A_prev dx Kr Q_up Q_dn om_up om_dn : K) : K :=
  Q_dn * om_dn + -Q_up * (1 - om_up) + 4 * D * A / dx + Kr * dx * A + dx * (2 * A - A_prev) / dt

/-- `chi_ik` — nquality.py 1121–1126. -/
def chiIk (Q_dn om_dn dx D A : K) : K := Q_dn * (1 - om_dn) + -2 * D * A / dx

/-- `gamma_ik` — nquality.py 1128–1131. -/
def gammaIk (dt c_prev A dx : K) : K := c_prev * A * dx / dt

/-- `kappa_Ik` — nquality.py 1133–1137. -/
def kappaIk (Q_im1_dn om_im1_dn D A dx_im1 : K) : K := -Q_im1_dn * om_im1_dn + -2 * D * A / dx_im1

/-- `lambda_Ik` — nquality.py 1139–1149. -/
def lambdaIk (A_S h h_prev Q_up Q_im1_dn om_up om_im1_dn dt Kr D D_im1 A A_im1 dx dx_im1 : K) : K :=
  A_S * h * Kr + om_up * Q_up + -(1 - om_im1_dn) * Q_im1_dn + 2 * D_im1 * A_im1 / dx_im1
    + 2 * D * A / dx + A_S * (2 * h - h_prev) / dt

/-- `mu_Ik` — nquality.py 1151–1155. -/
def muIk (Q_up om_up D A dx : K) : K := Q_up * (1 - om_up) + -2 * D * A / dx

/-- `eta_Ik` — nquality.py 1157–1161. -/
def etaIk (c_0 Q_0 A_S h c_prev dt : K) : K := c_0 * Q_0 + A_S * h * c_prev / dt

/-- `U_1k` (also `Z_Nk`) — nquality.py 1163–1165, 1208–1210. -/
def U_1k (chi beta : K) : K := safeDivide (-chi) beta

/-- `V_1k` (also `Y_Nk`) — nquality.py 1167–1169, 1204–1206. -/
def V_1k (gamma beta : K) : K := safeDivide gamma beta

/-- `W_1k` (also `X_Nk`) — nquality.py 1171–1173, 1200–1202. -/
def W_1k (alpha beta : K) : K := safeDivide (-alpha) beta

/-- `U_Ik` — nquality.py 1175–1177. -/
def U_Ik (chi T : K) : K := safeDivide (-chi) T

/-- `V_Ik` — nquality.py 1179–1185. -/
def V_Ik (gamma T alpha eta kappa V_Im1 lam U_Im1 : K) : K :=
  safeDivide gamma T + safeDivide (-alpha * (eta - kappa * V_Im1)) (T * (lam + kappa * U_Im1))

/-- `W_Ik` — nquality.py 1187–1191. -/
def W_Ik (alpha kappa W_Im1 T lam U_Im1 : K) : K :=
  safeDivide (alpha * kappa * W_Im1) (T * (lam + kappa * U_Im1))

/-- `T_ik` — nquality.py 1193–1198. -/
def T_ik (beta alpha mu lam kappa U_Im1 : K) : K :=
  beta + safeDivide (-alpha * mu) (lam + kappa * U_Im1)

/-- `X_Ik` — nquality.py 1212–1214. -/
def X_Ik (alpha O : K) : K := safeDivide (-alpha) O

/-- `Y_Ik` — nquality.py 1216–1221. -/
def Y_Ik (gamma O chi eta_Ip1 mu_Ip1 Y_Ip1 lam_Ip1 X_Ip1 : K) : K :=
  safeDivide gamma O + safeDivide (-chi * (eta_Ip1 - mu_Ip1 * Y_Ip1)) (O * (lam_Ip1 + mu_Ip1 * X_Ip1))

/-- `Z_Ik` — nquality.py 1223–1227. -/
def Z_Ik (chi mu_Ip1 Z_Ip1 O lam_Ip1 X_Ip1 : K) : K :=
  safeDivide (chi * mu_Ip1 * Z_Ip1) (O * (lam_Ip1 + mu_Ip1 * X_Ip1))

/-- `O_ik` — nquality.py 1229–1235. -/
def O_ik (beta chi kappa_Ip1 lam_Ip1 mu_Ip1 X_Ip1 : K) : K :=
  beta + safeDivide (-chi * kappa_Ip1) (lam_Ip1 + mu_Ip1 * X_Ip1)

/-! ### Data of a step -/

/-- Index arrays and control wiring shared with the hydraulic model (nquality.py 128–160). -/
structure Wiring where
  M : ℕ
  ix : Idx
  nix : NodeIdx
  bc : ℕ → Bool
  Ju : ℕ → ℕ
  Jd : ℕ → ℕ
  n_o : ℕ
  Juo : ℕ → ℕ
  Jdo : ℕ → ℕ
  n_w : ℕ
  Juw : ℕ → ℕ
  Jdw : ℕ → ℕ
  n_p : ℕ
  Jup : ℕ → ℕ
  Jdp : ℕ → ℕ

/-- Dispersion and reaction coefficients (nquality.py 101–127). -/
structure Params (K : Type*) where
  D : ℕ → K
  Kr : ℕ → K
  KrI : ℕ → K
  Krj : ℕ → K
  D_u : ℕ → K
  D_d : ℕ → K

/-- Hydraulic states of the step as imported (nquality.py 228–279): flows at the two faces of every
link and end stretch, flow areas now and before, depths, volumes, control flows. -/
structure Hydro (K : Type*) where
  dt : K
  Q_up : ℕ → K
  Q_dn : ℕ → K
  A : ℕ → K
  A_prev : ℕ → K
  dx : ℕ → K
  A_S : ℕ → K
  h : ℕ → K
  h_prev : ℕ → K
  Qu_up : ℕ → K
  Qu_dn : ℕ → K
  A_u : ℕ → K
  A_u_prev : ℕ → K
  dx_u : ℕ → K
  Qd_up : ℕ → K
  Qd_dn : ℕ → K
  A_d : ℕ → K
  A_d_prev : ℕ → K
  dx_d : ℕ → K
  V : ℕ → K
  V_prev : ℕ → K
  Qo : ℕ → K
  Qw : ℕ → K
  Qp : ℕ → K

/-- Concentrations: superjunctions, junctions, links, upstream and downstream end stretches. -/
structure Conc (K : Type*) where
  j : ℕ → K
  I : ℕ → K
  i : ℕ → K
  u : ℕ → K
  d : ℕ → K

/-- Arguments of `step` (nquality.py 952–953); `none` is Python's `None`. -/
structure Inputs (K : Type*) where
  c_bc : Option (ℕ → K)
  c_0j : ℕ → K
  Q_0j : ℕ → K
  c_0I : ℕ → K
  Q_0I : ℕ → K

/-- Coefficients of the link and junction equations read by the sweeps. -/
structure QCoef (K : Type*) where
  alpha : ℕ → K
  beta : ℕ → K
  chi : ℕ → K
  gamma : ℕ → K
  kappa : ℕ → K
  lam : ℕ → K
  mu : ℕ → K
  eta : ℕ → K

def QCoef.slice (q : QCoef K) (i1 I1 : ℕ) : QCoef K where
  alpha j := q.alpha (i1 + j)
  beta j := q.beta (i1 + j)
  chi j := q.chi (i1 + j)
  gamma j := q.gamma (i1 + j)
  kappa j := q.kappa (I1 + j)
  lam j := q.lam (I1 + j)
  mu j := q.mu (I1 + j)
  eta j := q.eta (I1 + j)

/-- Coefficients of the two end-stretch equations of a superlink (nquality.py 383–395). -/
structure EndCoef (K : Type*) where
  alpha_u : K
  beta_u : K
  chi_u : K
  gamma_u : K
  alpha_d : K
  beta_d : K
  chi_d : K
  gamma_d : K

/-- `link_coeffs` for the links — nquality.py 372–382 — and `numba_node_coeffs` — nquality.py
1377–1421. Each iteration of the loop over junctions writes entry `I` only and reads no written entry,
so it is modelled as a function. -/
def coeffs (nix : NodeIdx) (p : Params K) (y : Hydro K) (inp : Inputs K) (c : Conc K) : QCoef K where
  alpha i := alphaIk (y.Q_up i) (omegaGt (y.Q_up i)) (y.dx i) (p.D i) (y.A i)
  beta i := betaIk y.dt (p.D i) (y.A i) (y.A_prev i) (y.dx i) (p.Kr i) (y.Q_up i) (y.Q_dn i)
    (omegaGt (y.Q_up i)) (omegaGt (y.Q_dn i))
  chi i := chiIk (y.Q_dn i) (omegaGt (y.Q_dn i)) (y.dx i) (p.D i) (y.A i)
  gamma i := gammaIk y.dt (c.i i) (y.A i) (y.dx i)
  kappa I :=
    let k := nix.kI I
    if nix.isStart I then
      kappaIk (y.Qu_dn k) (omegaGt (y.Qu_dn k)) (p.D_u k) (y.A_u k) (y.dx_u k)
    else if nix.isEnd I then
      let im1 := nix.bwd I
      kappaIk (y.Q_dn im1) (omegaGt (y.Q_dn im1)) (p.D im1) (y.A im1) (y.dx im1)
    else
      let im1 := nix.fwd I - 1
      kappaIk (y.Q_dn im1) (omegaGt (y.Q_dn im1)) (p.D im1) (y.A im1) (y.dx im1)
  lam I :=
    let k := nix.kI I
    if nix.isStart I then
      let i := nix.fwd I
      lambdaIk (y.A_S I) (y.h I) (y.h_prev I) (y.Q_up i) (y.Qu_dn k) (omegaGt (y.Q_up i))
        (omegaGt (y.Qu_dn k)) y.dt (p.KrI I) (p.D i) (p.D_u k) (y.A i) (y.A_u k) (y.dx i) (y.dx_u k)
    else if nix.isEnd I then
      let im1 := nix.bwd I
      lambdaIk (y.A_S I) (y.h I) (y.h_prev I) (y.Qd_up k) (y.Q_dn im1) (omegaGt (y.Qd_up k))
        (omegaGt (y.Q_dn im1)) y.dt (p.KrI I) (p.D_d k) (p.D im1) (y.A_d k) (y.A im1) (y.dx_d k) (y.dx im1)
    else
      let i := nix.fwd I
      let im1 := i - 1
      lambdaIk (y.A_S I) (y.h I) (y.h_prev I) (y.Q_up i) (y.Q_dn im1) (omegaGt (y.Q_up i))
        (omegaGt (y.Q_dn im1)) y.dt (p.KrI I) (p.D i) (p.D im1) (y.A i) (y.A im1) (y.dx i) (y.dx im1)
  mu I :=
    let k := nix.kI I
    if nix.isStart I then
      let i := nix.fwd I
      muIk (y.Q_up i) (omegaGt (y.Q_up i)) (p.D i) (y.A i) (y.dx i)
    else if nix.isEnd I then
      muIk (y.Qd_up k) (omegaGt (y.Qd_up k)) (p.D_d k) (y.A_d k) (y.dx_d k)
    else
      let i := nix.fwd I
      muIk (y.Q_up i) (omegaGt (y.Q_up i)) (p.D i) (y.A i) (y.dx i)
  eta I := etaIk (inp.c_0I I) (inp.Q_0I I) (y.A_S I) (y.h I) (c.I I) y.dt

/-- End-stretch coefficients of superlink `k` — nquality.py 383–395 (reaction coefficient `0`). -/
def endCoeffs (p : Params K) (y : Hydro K) (c : Conc K) (k : ℕ) : EndCoef K where
  alpha_u := alphaIk (y.Qu_up k) (omegaGt (y.Qu_up k)) (y.dx_u k) (p.D_u k) (y.A_u k)
  beta_u := betaIk y.dt (p.D_u k) (y.A_u k) (y.A_u_prev k) (y.dx_u k) 0 (y.Qu_up k) (y.Qu_dn k)
    (omegaGt (y.Qu_up k)) (omegaGt (y.Qu_dn k))
  chi_u := chiIk (y.Qu_dn k) (omegaGt (y.Qu_dn k)) (y.dx_u k) (p.D_u k) (y.A_u k)
  gamma_u := gammaIk y.dt (c.u k) (y.A_u k) (y.dx_u k)
  alpha_d := alphaIk (y.Qd_up k) (omegaGt (y.Qd_up k)) (y.dx_d k) (p.D_d k) (y.A_d k)
  beta_d := betaIk y.dt (p.D_d k) (y.A_d k) (y.A_d_prev k) (y.dx_d k) 0 (y.Qd_up k) (y.Qd_dn k)
    (omegaGt (y.Qd_up k)) (omegaGt (y.Qd_dn k))
  chi_d := chiIk (y.Qd_dn k) (omegaGt (y.Qd_dn k)) (y.dx_d k) (p.D_d k) (y.A_d k)
  gamma_d := gammaIk y.dt (c.d k) (y.A_d k) (y.dx_d k)

/-! ### Sweeps -/

/-- Start of the forward sweep of one superlink — nquality.py 1427–1436. -/
def fwdFirst (q : QCoef K) (I1 i1 : ℕ) (s : Fwd K) : Fwd K where
  T := upd s.T i1 1
  U := upd s.U I1 (U_1k (q.chi i1) (q.beta i1))
  V := upd s.V I1 (V_1k (q.gamma i1) (q.beta i1))
  W := upd s.W I1 (W_1k (q.alpha i1) (q.beta i1))

/-- Body of the inner loop of the forward sweep — nquality.py 1438–1452. -/
def fwdNext (q : QCoef K) (I1 i1 : ℕ) (i : ℕ) (s : Fwd K) : Fwd K :=
  let i_next := i1 + 1 + i
  let I_next := I1 + 1 + i
  let Im1 := I_next - 1
  let T := upd s.T i_next (T_ik (q.beta i_next) (q.alpha i_next) (q.mu I_next) (q.lam I_next)
    (q.kappa I_next) (s.U Im1))
  let U := upd s.U I_next (U_Ik (q.chi i_next) (T i_next))
  let V := upd s.V I_next (V_Ik (q.gamma i_next) (T i_next) (q.alpha i_next) (q.eta I_next)
    (q.kappa I_next) (s.V Im1) (q.lam I_next) (U Im1))
  let W := upd s.W I_next (W_Ik (q.alpha i_next) (q.kappa I_next) (s.W Im1) (T i_next)
    (q.lam I_next) (U Im1))
  ⟨T, U, V, W⟩

/-- Forward sweep of one superlink — nquality.py 1427–1452. -/
def fwdSuperlink (q : QCoef K) (nlinks I1 i1 : ℕ) (s : Fwd K) : Fwd K :=
  forRange (nlinks - 1) (fwdNext q I1 i1) (fwdFirst q I1 i1 s)

/-- `numba_forward_recurrence` — nquality.py 1423–1453. -/
def forwardRecurrence (q : QCoef K) (NK : ℕ) (nk I_1k i_1k : ℕ → ℕ) (s : Fwd K) : Fwd K :=
  forRange NK (fun k s => fwdSuperlink q (nk k) (I_1k k) (i_1k k) s) s

/-- Start of the backward sweep of one superlink — nquality.py 1459–1469. -/
def bwdFirst (q : QCoef K) (I_N i_n : ℕ) (s : Bwd K) : Bwd K where
  O := upd s.O i_n 1
  X := upd s.X I_N (W_1k (q.alpha i_n) (q.beta i_n))
  Y := upd s.Y I_N (V_1k (q.gamma i_n) (q.beta i_n))
  Z := upd s.Z I_N (U_1k (q.chi i_n) (q.beta i_n))

/-- Body of the inner loop of the backward sweep — nquality.py 1470–1481. -/
def bwdNext (q : QCoef K) (I_N i_n : ℕ) (i : ℕ) (s : Bwd K) : Bwd K :=
  let i_next := i_n - 1 - i
  let I_next := I_N - 1 - i
  let Ip1 := I_next + 1
  let O := upd s.O i_next (O_ik (q.beta i_next) (q.chi i_next) (q.kappa Ip1) (q.lam Ip1) (q.mu Ip1)
    (s.X Ip1))
  let X := upd s.X I_next (X_Ik (q.alpha i_next) (O i_next))
  let Y := upd s.Y I_next (Y_Ik (q.gamma i_next) (O i_next) (q.chi i_next) (q.eta Ip1) (q.mu Ip1)
    (s.Y Ip1) (q.lam Ip1) (X Ip1))
  let Z := upd s.Z I_next (Z_Ik (q.chi i_next) (q.mu Ip1) (s.Z Ip1) (O i_next) (q.lam Ip1) (X Ip1))
  ⟨O, X, Y, Z⟩

/-- Backward sweep of one superlink — nquality.py 1459–1481. -/
def bwdSuperlink (q : QCoef K) (nlinks I_N i_n : ℕ) (s : Bwd K) : Bwd K :=
  forRange (nlinks - 1) (bwdNext q I_N i_n) (bwdFirst q I_N i_n s)

/-- `numba_backward_recurrence` — nquality.py 1455–1482. -/
def backwardRecurrence (q : QCoef K) (NK : ℕ) (nk I_Nk i_nk : ℕ → ℕ) (s : Bwd K) : Bwd K :=
  forRange NK (fun k s => bwdSuperlink q (nk k) (I_Nk k) (i_nk k) s) s

/-! ### Boundary coefficients -/

/-- Coefficients relating the end-stretch concentrations to the end-junction concentrations:
`c_u = X c_1 + Y + Z c_{N+1}` and `c_d = U c_{N+1} + V + W c_1`. -/
structure EndRec (K : Type*) where
  X : K
  Y : K
  Z : K
  U : K
  V : K
  W : K

/-- `numba_boundary_coefficients` with `X_uk … W_dk` — nquality.py 1237–1271, 1484–1499 (one superlink;
the loop writes entry `k` only). -/
def endRec (q : QCoef K) (f : Fwd K) (b : Bwd K) (I_1 I_N : ℕ) : EndRec K where
  X := safeDivide (-q.mu I_1 * b.X I_1 - q.lam I_1) (q.kappa I_1)
  Y := safeDivide (q.eta I_1 - q.mu I_1 * b.Y I_1) (q.kappa I_1)
  Z := safeDivide (-q.mu I_1 * b.Z I_1) (q.kappa I_1)
  U := safeDivide (-q.kappa (I_N + 1) * f.U I_N - q.lam (I_N + 1)) (q.mu (I_N + 1))
  V := safeDivide (q.eta (I_N + 1) - q.kappa (I_N + 1) * f.V I_N) (q.mu (I_N + 1))
  W := safeDivide (-q.kappa (I_N + 1) * f.W I_N) (q.mu (I_N + 1))

/-- `theta`, `sigma`, `xi` of the two end stretches — nquality.py 1273–1295: `c_1 = θ c_u + σ c_J + ξ`. -/
structure EndLin (K : Type*) where
  theta_u : K
  sigma_u : K
  xi_u : K
  theta_d : K
  sigma_d : K
  xi_d : K

def endLin (e : EndCoef K) : EndLin K where
  theta_u := safeDivide (-e.beta_u) e.chi_u
  sigma_u := safeDivide (-e.alpha_u) e.chi_u
  xi_u := safeDivide e.gamma_u e.chi_u
  theta_d := safeDivide (-e.beta_d) e.alpha_d
  sigma_d := safeDivide (-e.chi_d) e.alpha_d
  xi_d := safeDivide e.gamma_d e.alpha_d

/-- `D_k_star` — nquality.py 1297–1305. -/
def dStar (r : EndRec K) (l : EndLin K) : K :=
  (1 - r.X * l.theta_u) * (1 - r.U * l.theta_d) - r.W * r.Z * l.theta_u * l.theta_d

/-- `rho_uk` — nquality.py 1307–1316. -/
def rhoU (r : EndRec K) (l : EndLin K) : K :=
  safeDivide ((1 - r.U * l.theta_d) * r.X * l.sigma_u + r.Z * l.theta_d * r.W * l.sigma_u) (dStar r l)

/-- `tau_uk` — nquality.py 1318–1327. -/
def tauU (r : EndRec K) (l : EndLin K) : K := safeDivide (r.Z * l.sigma_d) (dStar r l)

/-- `zeta_uk` — nquality.py 1329–1340. -/
def zetaU (r : EndRec K) (l : EndLin K) : K :=
  safeDivide ((1 - r.U * l.theta_d) * (r.Y + r.X * l.xi_u + r.Z * l.xi_d)
    + r.Z * l.theta_d * (r.V + r.U * l.xi_d + r.W * l.xi_u)) (dStar r l)

/-- `rho_dk` — nquality.py 1342–1351. -/
def rhoD (r : EndRec K) (l : EndLin K) : K := safeDivide (r.W * l.sigma_u) (dStar r l)

/-- `tau_dk` — nquality.py 1353–1362. -/
def tauD (r : EndRec K) (l : EndLin K) : K :=
  safeDivide (r.W * l.theta_u * r.Z * l.sigma_d + (1 - r.X * l.theta_u) * r.U * l.sigma_d) (dStar r l)

/-- `zeta_dk` — nquality.py 1364–1375. -/
def zetaD (r : EndRec K) (l : EndLin K) : K :=
  safeDivide (r.W * l.theta_u * (r.Y + r.X * l.xi_u + r.Z * l.xi_d)
    + (1 - r.X * l.theta_u) * (r.V + r.U * l.xi_d + r.W * l.xi_u)) (dStar r l)

/-! ### Superjunction system -/

/-- Superlinks as seen by the assembly. -/
structure Ends (K : Type*) where
  n : ℕ
  Ju : ℕ → ℕ
  Jd : ℕ → ℕ
  rho_u : ℕ → K
  tau_u : ℕ → K
  zeta_u : ℕ → K
  rho_d : ℕ → K
  tau_d : ℕ → K
  zeta_d : ℕ → K
  Qu : ℕ → K
  Qd : ℕ → K
  /-- `2 * D_uk * A_uk / dx_uk` -/
  Gu : ℕ → K
  Gd : ℕ → K

/-- `kuj` — nquality.py 1525–1526. (The code groups `2·D·A·(ρ−1)/dx`.) -/
def Ends.kuj (L : Ends K) (k : ℕ) : K :=
  -L.Qu k * (omegaGe (L.Qu k) + (1 - omegaGe (L.Qu k)) * L.rho_u k) + L.Gu k * (L.rho_u k - 1)

/-- `kdj` — nquality.py 1527–1528. -/
def Ends.kdj (L : Ends K) (k : ℕ) : K :=
  L.Qd k * (L.tau_d k * omegaGe (L.Qd k) + (1 - omegaGe (L.Qd k))) + L.Gd k * (L.tau_d k - 1)

/-- Superjunction data of a step. -/
structure QNet (K : Type*) where
  M : ℕ
  bc : ℕ → Bool
  V : ℕ → K
  V_prev : ℕ → K
  Kr : ℕ → K
  ends : Ends K
  orifices : Ctrls K
  weirs : Ctrls K
  pumps : Ctrls K

/-- Controls as seen by `numba_create_OWP_matrix` — nquality.py 706–723 with 1552–1572: the outflow from
the upstream superjunction is `Q ω c_u + Q (1-ω) c_d`, i.e. a linear relation with
`alpha = Q ω`, `beta = Q (1-ω)`; the loops are those of the hydraulic matrices. -/
def ctrls (n : ℕ) (Ju Jd : ℕ → ℕ) (Q : ℕ → K) : Ctrls K where
  n := n
  Ju := Ju
  Jd := Jd
  alpha c := Q c * omegaGe (Q c)
  beta c := Q c * (1 - omegaGe (Q c))
  chi _ := 0

/-- `numba_create_A_matrix` — nquality.py 1520–1549, with the zero-filled `_F_jj` of 689. -/
def createA (net : QNet K) (dt : K) (A : ℕ → ℕ → K) : ℕ → ℕ → K :=
  let L := net.ends
  let F : ℕ → K := fun _ => 0
  let F := addAt F L.Ju (fun k => -L.kuj k) L.n
  let F := addAt F L.Jd (fun k => -L.kdj k) L.n
  let F := fun i => F i + ((2 * net.V i - net.V_prev i) / dt + net.Kr i * net.V i)
  let A := setDiag net.bc 1 F net.M A
  addOffDiag net.bc L.Ju L.Jd (fun k => -(L.tau_u k * (-L.Qu k * (1 - omegaGe (L.Qu k)) + L.Gu k)))
    (fun k => L.rho_d k * (L.Qd k * omegaGe (L.Qd k) + L.Gd k)) L.n A

/-- All four matrices — nquality.py 688–723. -/
def assembleMats (net : QNet K) (dt : K) (m : Mats K) : Mats K where
  A := createA net dt (clearOffDiagonals net.bc net.ends.Ju net.ends.Jd net.ends.n m.A)
  O := ctrlBlock net.bc net.M net.orifices m.O
  W := ctrlBlock net.bc net.M net.weirs m.W
  P := ctrlBlock net.bc net.M net.pumps m.P

/-- The vector `D` — nquality.py 690, 701–704. -/
def assembleD (net : QNet K) : ℕ → K :=
  let L := net.ends
  let D : ℕ → K := fun _ => 0
  let D := addAt D L.Ju (fun k => (-L.Qu k * (1 - omegaGe (L.Qu k)) + L.Gu k) * L.zeta_u k) L.n
  addAt D L.Jd (fun k => (L.Qd k * omegaGe (L.Qd k) + L.Gd k) * L.zeta_d k) L.n

/-- The right-hand side `b` — nquality.py 725–730. -/
def assembleB (net : QNet K) (dt : K) (c_prev Q0 c0 cbc : ℕ → K) : ℕ → K := fun i =>
  if net.bc i then cbc i else net.V i * c_prev i / dt + Q0 i * c0 i + assembleD net i

/-- The system matrix — nquality.py 751–764. -/
def systemMatrix (net : QNet K) (m : Mats K) : ℕ → ℕ → K :=
  if net.orifices.n + net.weirs.n + net.pumps.n = 0 then m.A
  else fun i j => m.A i j + m.O i j + m.W i j + m.P i j

/-! ### Limits, boundary states and internals -/

/-- `np.maximum(x, c_min)` then `np.minimum(x, c_max)`, and the equivalent `if` and mask forms —
nquality.py 770–771, 806–807, 839–846, 882–885, 919–922, 1609–1616. `none` is the default `c_max = np.inf`. -/
def limit (lo : K) (hi : Option K) (x : K) : K :=
  let x := if x < lo then lo else x
  match hi with
  | none => x
  | some m => if x > m then m else x

/-- `c_i_f` — nquality.py 1627–1631. -/
def c_i_f (c_Ip1 c_1 U V W : K) : K := U * c_Ip1 + V + W * c_1

/-- `c_i_b` — nquality.py 1634–1638. -/
def c_i_b (c_I c_Np1 X Y Z : K) : K := X * c_I + Y + Z * c_Np1

/-- `c_I_b` — nquality.py 1641–1645. -/
def c_I_b (c_i c_Np1 X Y Z : K) : K := safeDivide (c_i - Y - Z * c_Np1) X

/-- Junction and link concentrations. -/
structure CC (K : Type*) where
  I : ℕ → K
  i : ℕ → K

/-- Body of the inner loop of `numba_solve_internals` — nquality.py 1603–1616: the junction value is
computed from the unlimited link value, then both are limited. -/
def internalsNext (f : Fwd K) (b : Bwd K) (lo : K) (hi : Option K) (c_1 c_Np1 : K) (I_N i_n : ℕ) (j : ℕ)
    (s : CC K) : CC K :=
  let I := I_N - j
  let i := i_n - j
  let ci := c_i_f (s.I (I + 1)) c_1 (f.U I) (f.V I) (f.W I)
  let cI := c_I_b ci c_Np1 (b.X I) (b.Y I) (b.Z I)
  ⟨upd s.I I (limit lo hi cI), upd s.i i (limit lo hi ci)⟩

/-- Body of the outer loop of `numba_solve_internals` — nquality.py 1588–1622. -/
def internalsSuperlink (f : Fwd K) (b : Bwd K) (lo : K) (hi : Option K) (c_1 c_Np1 : K)
    (n I_1 i_1 : ℕ) (first_link_backwards : Bool) (s : CC K) : CC K :=
  let i_n := i_1 + n - 1
  let I_Np1 := I_1 + n
  let I_N := I_Np1 - 1
  let s := { s with I := upd (upd s.I I_1 c_1) I_Np1 c_Np1 }
  let s := forRange (n - 1) (internalsNext f b lo hi c_1 c_Np1 I_N i_n) s
  if first_link_backwards then
    { s with i := upd s.i i_1 (c_i_b (s.I I_1) c_Np1 (b.X I_1) (b.Y I_1) (b.Z I_1)) }
  else
    { s with i := upd s.i i_1 (c_i_f (s.I (I_1 + 1)) c_1 (f.U I_1) (f.V I_1) (f.W I_1)) }

/-- `numba_solve_internals` — nquality.py 1584–1624. -/
def numbaSolveInternals (f : Fwd K) (b : Bwd K) (lo : K) (hi : Option K) (c_1k c_Np1k : ℕ → K)
    (i_1k I_1k nk : ℕ → ℕ) (NK : ℕ) (first_link_backwards : Bool) (s : CC K) : CC K :=
  forRange NK (fun k s => internalsSuperlink f b lo hi (c_1k k) (c_Np1k k) (nk k) (I_1k k) (i_1k k)
    first_link_backwards s) s

/-- `solve_internals_backwards` / `_forwards` — nquality.py 853–925: loop, then the limits on the whole
arrays. The finiteness assertions are outside the model. -/
def solveInternals (f : Fwd K) (b : Bwd K) (lo : K) (hi : Option K) (c_1k c_Np1k : ℕ → K)
    (i_1k I_1k nk : ℕ → ℕ) (NK : ℕ) (first_link_backwards : Bool) (s : CC K) : CC K :=
  let s := numbaSolveInternals f b lo hi c_1k c_Np1k i_1k I_1k nk NK first_link_backwards s
  ⟨fun I => limit lo hi (s.I I), fun i => limit lo hi (s.i i)⟩

/-! ### One step -/

/-- Arrays re-used between steps (nquality.py 163–205). -/
structure Work (K : Type*) where
  mats : Mats K
  f : Fwd K
  b : Bwd K

section step

variable (w : Wiring) (p : Params K) (lo : K) (hi : Option K) (y : Hydro K) (inp : Inputs K)
  (wk : Work K) (c : Conc K)

/-- Coefficients of the step. -/
def stepCoef : QCoef K := coeffs w.nix p y inp c

def stepFwd : Fwd K :=
  forwardRecurrence (stepCoef w p y inp c) w.ix.NK w.ix.nk w.ix.I_1k w.ix.i_1k wk.f

def stepBwd : Bwd K :=
  backwardRecurrence (stepCoef w p y inp c) w.ix.NK w.ix.nk w.ix.I_Nk w.ix.i_nk wk.b

def stepEndRec (k : ℕ) : EndRec K :=
  endRec (stepCoef w p y inp c) (stepFwd w p y inp wk c) (stepBwd w p y inp wk c) (w.ix.I_1k k) (w.ix.I_Nk k)

def stepEndLin (k : ℕ) : EndLin K := endLin (endCoeffs p y c k)

/-- The superjunction system of the step — nquality.py 613–732. -/
def stepNet : QNet K where
  M := w.M
  bc := w.bc
  V := y.V
  V_prev := y.V_prev
  Kr := p.Krj
  ends :=
    { n := w.ix.NK, Ju := w.Ju, Jd := w.Jd
      rho_u := fun k => rhoU (stepEndRec w p y inp wk c k) (stepEndLin p y c k)
      tau_u := fun k => tauU (stepEndRec w p y inp wk c k) (stepEndLin p y c k)
      zeta_u := fun k => zetaU (stepEndRec w p y inp wk c k) (stepEndLin p y c k)
      rho_d := fun k => rhoD (stepEndRec w p y inp wk c k) (stepEndLin p y c k)
      tau_d := fun k => tauD (stepEndRec w p y inp wk c k) (stepEndLin p y c k)
      zeta_d := fun k => zetaD (stepEndRec w p y inp wk c k) (stepEndLin p y c k)
      Qu := y.Qu_up
      Qd := y.Qd_dn
      Gu := fun k => 2 * p.D_u k * y.A_u k / y.dx_u k
      Gd := fun k => 2 * p.D_d k * y.A_d k / y.dx_d k }
  orifices := ctrls w.n_o w.Juo w.Jdo y.Qo
  weirs := ctrls w.n_w w.Juw w.Jdw y.Qw
  pumps := ctrls w.n_p w.Jup w.Jdp y.Qp

def stepMats : Mats K := assembleMats (stepNet w p y inp wk c) y.dt wk.mats

def stepLhs : ℕ → ℕ → K := systemMatrix (stepNet w p y inp wk c) (stepMats w p y inp wk c)

def stepRhs : ℕ → K :=
  assembleB (stepNet w p y inp wk c) y.dt c.j inp.Q_0j inp.c_0j (inp.c_bc.getD c.j)

/-- Unlimited concentrations of the end stretches and end junctions for superjunction concentrations
`cj` — `solve_boundary_states`, nquality.py 833–836. -/
def rawU (cj : ℕ → K) (k : ℕ) : K :=
  let r := stepEndRec w p y inp wk c k
  let l := stepEndLin p y c k
  rhoU r l * cj (w.Ju k) + tauU r l * cj (w.Jd k) + zetaU r l

def rawD (cj : ℕ → K) (k : ℕ) : K :=
  let r := stepEndRec w p y inp wk c k
  let l := stepEndLin p y c k
  rhoD r l * cj (w.Ju k) + tauD r l * cj (w.Jd k) + zetaD r l

def raw1 (cj : ℕ → K) (k : ℕ) : K :=
  let l := stepEndLin p y c k
  l.theta_u * rawU w p y inp wk c cj k + l.sigma_u * cj (w.Ju k) + l.xi_u

def rawNp1 (cj : ℕ → K) (k : ℕ) : K :=
  let l := stepEndLin p y c k
  l.theta_d * rawD w p y inp wk c cj k + l.sigma_d * cj (w.Jd k) + l.xi_d

/-- New concentrations after the solver returned `x` — nquality.py 768–774, 833–851, 853–888, in the
order of `step` (980–1000). -/
def advance (x : ℕ → K) : Conc K :=
  let cj := fun j => limit lo hi (x j)
  let s := solveInternals (stepFwd w p y inp wk c) (stepBwd w p y inp wk c) lo hi
    (fun k => limit lo hi (raw1 w p y inp wk c cj k)) (fun k => limit lo hi (rawNp1 w p y inp wk c cj k))
    w.ix.i_1k w.ix.I_1k w.ix.nk w.ix.NK true ⟨c.I, c.i⟩
  { j := cj
    I := s.I
    i := s.i
    u := fun k => limit lo hi (rawU w p y inp wk c cj k)
    d := fun k => limit lo hi (rawD w p y inp wk c cj k) }

/-- Scratch arrays after the step. -/
def stepWork : Work K := ⟨stepMats w p y inp wk c, stepFwd w p y inp wk c, stepBwd w p y inp wk c⟩

/-- The linear solver returned `x` (by specification). -/
def Solved (x : ℕ → K) : Prop := Solves w.M (stepLhs w p y inp wk c) (stepRhs w p y inp wk c) x

end step

end Pipedream.Quality
