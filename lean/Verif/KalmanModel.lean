import Verif.Basic
import Mathlib.LinearAlgebra.Matrix.NonsingularInverse
import Mathlib.Data.Matrix.ColumnRowPartitioned

/-!
# Model of the Kalman filter

`_kalman_semi_implicit` (`/repo/pipedream_solver/nutils.py` 160–199, identical in `utils.py` 100–136),
`_square_root_kalman_semi_implicit` (`utils.py` 138–185), `Simulation.kalman_filter`
(`simulation.py` 454–501), the default covariances of `Simulation.__init__` (`simulation.py` 166–211) and
`_semi_implicit_system` (`superlink.py` 3852–3877).

`n` indexes superjunctions, `m` observations, `a` process-noise signals. Numbers are exact (any ordered
field); the LAPACK routines are used by specification: `np.linalg.inv` raises on a singular matrix and
inverts any other one, `np.linalg.cholesky` returns the lower-triangular factor, `np.linalg.qr(·, 'r')`
returns a triangular factor with the same Gram matrix.
-/

namespace Pipedream.Kalman

open Matrix

/-- Exceptions: `LinAlgError` of numpy and the `ValueError` of a failed tuple assignment. -/
inductive KErr
  | linAlg
  | unpack
  deriving DecidableEq

noncomputable section

variable {K : Type*} [Field K] [LinearOrder K]
variable {n m a : Type*} [Fintype n] [DecidableEq n] [Fintype m] [DecidableEq m] [Fintype a]
  [DecidableEq a]

/-- `np.linalg.inv`. -/
def npInv (A : Matrix n n K) : Except KErr (Matrix n n K) :=
  if A.det = 0 then .error .linAlg else .ok A⁻¹

/-- Return value of `_kalman_semi_implicit`: `(b_hat, P_x_k1_k1, P_zz)`. -/
structure Out (K n m : Type*) where
  bHat : n → K
  P : Matrix n n K
  Pzz : Matrix m m K

/-- `_kalman_semi_implicit` — nutils.py 186–197. -/
def kalman (Z : m → K) (P : Matrix n n K) (A1 A2 : Matrix n n K) (b : n → K) (H : Matrix m n K)
    (C : Matrix n a K) (Q : Matrix a a K) (R : Matrix m m K) : Except KErr (Out K n m) :=
  match npInv A1 with
  | .error e => .error e
  | .ok A1i =>
    let x := A1i *ᵥ b
    let Pp := A1i * A2 * P * A2ᵀ * A1iᵀ + C * Q * Cᵀ
    match npInv (H * Pp * Hᵀ + R) with
    | .error e => .error e
    | .ok Si =>
      let L := Pp * Hᵀ * Si
      let xh := x + L *ᵥ (Z - H *ᵥ x)
      .ok { bHat := A1 *ᵥ xh, P := (1 - L * H) * Pp, Pzz := H * Pp * Hᵀ + R }

/-! ### The filter in a simulation -/

/-- The part of a model and simulation that the filter reads and writes: the assembled head system
(`A + O + W + P`, `b`), storage areas, boundary flags, inverts and depth limits, time, iteration count,
heads and covariance. Flows and internal depths are recomputed from the heads by the same functions as in
an ordinary step (`StepModel`) and are left out. -/
structure KSim (K n : Type*) where
  lhs : Matrix n n K
  b : n → K
  area : n → K
  bc : n → Bool
  zInv : n → K
  maxDepth : n → K
  t : K
  iter : ℤ
  heads : n → K
  P : Matrix n n K

/-- `A_2 = np.diag(np.where(~bc, _A_sj / _dt, 0))` — superlink.py 3876. -/
def a2 (s : KSim K n) (dt : K) : Matrix n n K :=
  Matrix.diagonal fun j => if s.bc j then 0 else s.area j / dt

/-- `solve_sparse_matrix`, counters and time of `_solve_step` — nsuperlink.py 1297–1341, superlink.py
4081–4083. -/
def solveStep (s : KSim K n) (dt : K) : Except KErr (KSim K n) :=
  match npInv s.lhs with
  | .error e => .error e
  | .ok Ai =>
    .ok { s with
      heads := fun j => min (max ((Ai *ᵥ s.b) j) (s.zInv j)) (s.zInv j + s.maxDepth j)
      iter := s.iter + 1
      t := s.t + dt }

/-- `Simulation.kalman_filter` with `SR=False` — simulation.py 489–501. -/
def kalmanFilter (Z : m → K) (H : Matrix m n K) (C : Matrix n a K) (Q : Matrix a a K)
    (R : Matrix m m K) (dt : K) (s : KSim K n) : Except KErr (KSim K n) :=
  match kalman Z s.P s.lhs (a2 s dt) s.b H C Q R with
  | .error e => .error e
  | .ok o => solveStep { s with P := o.P, b := o.bHat, iter := s.iter - 1, t := s.t - dt } dt

/-- A value given for `Rcov`, `Qcov`, `C` or `H` of `Simulation` — simulation.py 166–206. -/
inductive CovArg (K n : Type*)
  | none
  | scalar (c : K)
  | vec (v : n → K)
  | mat (M : Matrix n n K)

/-- `Rcov`, `Qcov` (square, default zero) — simulation.py 166–186. -/
def CovArg.cov : CovArg K n → Matrix n n K
  | .none => 0
  | .scalar c => c • (1 : Matrix n n K)
  | .vec v => Matrix.diagonal v
  | .mat M => M

/-- `C`, `H` (square, default identity) — simulation.py 187–206. -/
def CovArg.op : CovArg K n → Matrix n n K
  | .none => 1
  | .scalar c => c • (1 : Matrix n n K)
  | .vec v => Matrix.diagonal v
  | .mat M => M

/-- `self.P_x_k_k` after construction — simulation.py 207–210. -/
def initialP (C Q : CovArg K n) (Pxx : Option (Matrix n n K)) : Matrix n n K :=
  match Pxx with
  | Option.none => C.op * Q.cov * (C.op)ᵀ
  | some P => P

/-- One assimilation in a run: the head system assembled by a model step, then `kalman_filter`. -/
structure Assim (K n m : Type*) where
  lhs : Matrix n n K
  b : n → K
  area : n → K
  dt : K
  Z : m → K

/-- A run of assimilations with fixed `H`, `C`, `Qcov`, `Rcov`; what happens to the heads between filter
calls is arbitrary (each entry brings its own head system). -/
def assimRun (H : Matrix m n K) (C : Matrix n a K) (Q : Matrix a a K) (R : Matrix m m K) :
    List (Assim K n m) → KSim K n → Except KErr (KSim K n)
  | [], s => .ok s
  | o :: os, s =>
    match kalmanFilter o.Z H C Q R o.dt { s with lhs := o.lhs, b := o.b, area := o.area } with
    | .error e => .error e
    | .ok s' => assimRun H C Q R os s'

/-! ### The square-root variant -/

/-- What `np.linalg.cholesky(P)` returns: the lower-triangular factor `L` with positive diagonal and
`L Lᵀ = P`. -/
structure IsChol {r : ℕ} (L P : Matrix (Fin r) (Fin r) K) : Prop where
  lower : ∀ i j, i < j → L i j = 0
  pos : ∀ i, 0 < L i i
  fac : L * Lᵀ = P

/-- What `np.linalg.qr(X, mode='r')` returns, as far as it is used: a matrix with the Gram matrix
of `X`. (Triangularity and signs play no role below.) -/
def IsQR {p q : Type*} [Fintype p] [Fintype q] (G : Matrix q q K) (X : Matrix p q K) : Prop :=
  Gᵀ * G = Xᵀ * X

/-- `_square_root_kalman_semi_implicit` — utils.py 162–181, as a relation between inputs, the
factors returned by LAPACK and the two results `b_hat`, `P_x_k1_k1`. The vertical stacking
`np.vstack((X, Y))` is `Matrix.fromRows X Y`. `C` is not used. -/
structure SRPass {r q : ℕ} (Z : Fin q → K) (P A1 A2 : Matrix (Fin r) (Fin r) K) (b : Fin r → K)
    (H : Matrix (Fin q) (Fin r) K) (Q : Matrix (Fin r) (Fin r) K) (R : Matrix (Fin q) (Fin q) K)
    (bHat : Fin r → K) (Pn : Matrix (Fin r) (Fin r) K) where
  Rq : Matrix (Fin r) (Fin r) K
  Rr : Matrix (Fin q) (Fin q) K
  F : Matrix (Fin r) (Fin r) K
  Fbar : Matrix (Fin r) (Fin r) K
  G : Matrix (Fin q) (Fin q) K
  L : Matrix (Fin r) (Fin q) K
  Fhat : Matrix (Fin r) (Fin r) K
  invA : A1.det ≠ 0
  invG : G.det ≠ 0
  hRq : IsChol Rq Q
  hRr : IsChol Rr R
  hF : IsChol F P
  hFbar : IsQR Fbar (Matrix.fromRows (F * A2ᵀ * (A1⁻¹)ᵀ) Rq)
  hG : IsQR G (Matrix.fromRows (Fbar * Hᵀ) Rr)
  hL : L = (G⁻¹ * ((G⁻¹)ᵀ * H) * Fbarᵀ * Fbar)ᵀ
  hFhat : IsQR Fhat (Matrix.fromRows (Fbar * (1 - L * H)ᵀ) (Rr * Lᵀ))
  hP : Pn = Fhatᵀ * Fhat
  hb : bHat = A1 *ᵥ (A1⁻¹ *ᵥ b + L *ᵥ (Z - H *ᵥ (A1⁻¹ *ᵥ b)))

/-- A Python tuple of matrices/vectors, only its length matters for the assignment. -/
inductive Val (K n m : Type*)
  | vec (v : n → K)
  | matN (M : Matrix n n K)
  | matM (M : Matrix m m K)

/-- `b_hat, P_x_k_k, P_zz = t` — simulation.py 490, 493. -/
def unpack3 (t : List (Val K n m)) : Except KErr (Val K n m × Val K n m × Val K n m) :=
  match t with
  | [x, y, z] => .ok (x, y, z)
  | _ => .error .unpack

/-- The tuple returned by `_kalman_semi_implicit` — nutils.py 197. -/
def Out.tuple (o : Out K n m) : List (Val K n m) := [.vec o.bHat, .matN o.P, .matM o.Pzz]

/-- The tuple returned by `_square_root_kalman_semi_implicit` — utils.py 181. -/
def srTuple (bHat : n → K) (P : Matrix n n K) : List (Val K n m) := [.vec bHat, .matN P]

/-- Assignment of the filter's results in `kalman_filter` — simulation.py 489–495. `plain` and `root` are
what the two functions returned (or raised). -/
def filterResults (SR : Bool) (plain : Except KErr (Out K n m))
    (root : Except KErr ((n → K) × Matrix n n K)) :
    Except KErr (Val K n m × Val K n m × Val K n m) :=
  if SR = false then
    match plain with
    | .error e => .error e
    | .ok o => unpack3 o.tuple
  else
    match root with
    | .error e => .error e
    | .ok (bh, P) => unpack3 (srTuple bh P)

end

end Pipedream.Kalman
