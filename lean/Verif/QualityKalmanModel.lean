import Verif.KalmanModel
import Verif.QualityModel

/-!
# Model of the water-quality Kalman filter

`Kalman_Filter_WQ1` (`/repo/pipedream_solver/nquality.py` 1002–1043), `Kalman_Filter_WQ2` (1045–1071) with
the compiled `KF_WQ2` (1763–1780), `KF_Multi_WQ` (1073–1088) and the initial filter state of
`QualityBuilder.__init__` (212–224).

`n` indexes superjunctions. Numbers are exact (any ordered field); `np.linalg.inv` is used by specification
(`Kalman.npInv`: raises on a singular matrix).
-/

namespace Pipedream.Quality

open Matrix Kalman

noncomputable section

variable {K : Type*} [Field K] [LinearOrder K]
variable {n : Type*} [Fintype n] [DecidableEq n]

/-- The attributes the filter reads and writes: `_c_j`, `x_hat`, `_c_j_prev_kf`, `P_k`. -/
structure KF (K n : Type*) where
  cj : n → K
  xHat : n → K
  cPrev : n → K
  P : Matrix n n K

/-- What one call of a filter sees: the matrix and right-hand side the last `step` left behind (`A_L_kf`, `b`
— nquality.py 732, 774), the volumes `A_sj * (_H_j_next - _z_inv_j)`, the time step, `Observation_point`,
`N_process_sigma`, `N_measure_sigma`, `process_correlation ≠ 0` and `measure`. -/
structure Call (K n : Type*) where
  lhs : Matrix n n K
  b : n → K
  V : n → K
  dt : K
  obs : n
  sw : K
  sv : K
  corr : Bool
  z : K

/-- Filter state after the constructor, `c0` being the initial concentrations and `c1` those after the
constructor's own `step(dt=1e-6)` — nquality.py 217–225. `_c_j_prev_kf` is bound before that step; `step`
rebinds `_c_j` and leaves the old array alone. -/
def kfInit (c0 c1 : n → K) : KF K n := ⟨c1, fun _ => 0, c0, 0⟩

/-- `A1_k` — nquality.py 1068 (1026, 1082). -/
def Call.A1 (c : Call K n) : Matrix n n K := diagonal fun j => c.V j / c.dt

/-- `H_k` — nquality.py 1055. -/
def Call.Hk (c : Call K n) : Matrix (Fin 1) n K := Matrix.of fun _ j => if j = c.obs then 1 else 0

/-- `R_cov` — nquality.py 1061. -/
def Call.R (c : Call K n) : Matrix (Fin 1) (Fin 1) K := Matrix.of fun _ _ => c.sv ^ 2

/-- `Q_cov` — nquality.py 1062–1065. -/
def Call.Q (c : Call K n) : Matrix n n K :=
  if c.corr then Matrix.of fun _ _ => c.sw ^ 2 else c.sw ^ 2 • (1 : Matrix n n K)

/-- `KF_Multi_WQ` — nquality.py 1082–1088: the matrices `A_k`, `B_k`. -/
def kfMulti (c : Call K n) (s : KF K n) : Except KErr (Matrix n n K × (n → K) × KF K n) :=
  let Bu := c.b - c.A1 *ᵥ s.cPrev
  match npInv c.lhs with
  | .error e => .error e
  | .ok Ai => .ok (Ai * c.A1, Ai *ᵥ Bu, { s with cPrev := s.cj })

/-- Estimate and covariance computed from `A_k`, `B_k` — the common part of nquality.py 1032–1038 and
1770–1778 (`x_hat`, `P_k`), with process covariance `Q` and measurement `z`. -/
def kfUpdate (c : Call K n) (Q : Matrix n n K) (z : K) (s : KF K n) :
    Except KErr ((n → K) × Matrix n n K) :=
  let Bu := c.b - c.A1 *ᵥ s.cPrev
  match npInv c.lhs with
  | .error e => .error e
  | .ok Ai =>
    let Ak := Ai * c.A1
    let Bk := Ai *ᵥ Bu
    let x := Ak *ᵥ s.xHat + Bk
    let Pp := Ak * s.P * Akᵀ + Q
    match npInv (c.Hk * Pp * c.Hkᵀ + c.R) with
    | .error e => .error e
    | .ok Si =>
      let G := Pp * c.Hkᵀ * Si
      let xh := x + G *ᵥ fun i => z - (c.Hk *ᵥ x) i
      .ok (fun j => if xh j < 0 then 0 else xh j, Pp - G * c.Hk * Pp)

/-- `Kalman_Filter_WQ2`, data assimilation — nquality.py 1045–1071. -/
def kfStep (c : Call K n) (s : KF K n) : Except KErr (KF K n) :=
  match kfUpdate c c.Q c.z s with
  | .error e => .error e
  | .ok (x, P) => .ok ⟨x, x, x, P⟩

/-- `Kalman_Filter_WQ1`, artificial measurements — nquality.py 1002–1043; `noise` stands for
`np.random.randn()`. Always the uncorrelated process covariance. -/
def kfArtificial (c : Call K n) (noise : K) (s : KF K n) : Except KErr (KF K n) :=
  match kfUpdate c (c.sw ^ 2 • (1 : Matrix n n K)) (s.cj c.obs + c.sv * noise) s with
  | .error e => .error e
  | .ok (x, P) => .ok ⟨s.cj, x, s.cj, P⟩

/-- A run: between filter calls the model steps, which rebinds `_c_j` (to any values) and brings a new system;
each entry is a call of `Kalman_Filter_WQ2`. -/
def kfRun : List ((n → K) × Call K n) → KF K n → Except KErr (KF K n)
  | [], s => .ok s
  | (cj, c) :: os, s =>
    match kfStep c { s with cj := cj } with
    | .error e => .error e
    | .ok s' => kfRun os s'

end

end Pipedream.Quality
