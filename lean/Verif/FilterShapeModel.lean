import Verif.Basic

/-!
# Model of the matrices handed to the Kalman filter, with their shapes

`KalmanModel` takes the matrices of the filter as typed matrices. Here they are numpy arrays that carry their
shape: how `Simulation.__init__` turns the arguments `Rcov`, `Qcov`, `C`, `H` into arrays
(`/repo/pipedream_solver/simulation.py` 166–210) and which shapes `_kalman_semi_implicit`
(`/repo/pipedream_solver/nutils.py` 160–199, the same lines in `utils.py` 100–136) accepts and returns.

Entries of an array outside its shape are not looked at. Singular matrices are the subject of `KalmanModel`;
here `np.linalg.inv` only checks that its argument is square.
-/

namespace Pipedream.Kalman

/-- `x.shape` of an array with at most two dimensions. -/
inductive Shape
  | s0
  | s1 (n : ℕ)
  | s2 (r c : ℕ)
  deriving DecidableEq

/-- A numpy array with at most two dimensions. -/
inductive Nd (K : Type*)
  | scal (x : K)
  | vec (n : ℕ) (v : ℕ → K)
  | mat (r c : ℕ) (X : ℕ → ℕ → K)

/-- `x.shape`. -/
def Nd.shape {K : Type*} : Nd K → Shape
  | .scal _ => .s0
  | .vec n _ => .s1 n
  | .mat r c _ => .s2 r c

/-- Exceptions of the constructor: `shape[0]` of an array without dimensions, a failed `assert`, an argument
without `shape`. -/
inductive ArgErr
  | index
  | assertion
  | attribute
  deriving DecidableEq

/-- What can be given for `Rcov`, `Qcov`, `C`, `H`: nothing, a number, an array, a table of pandas (has `shape`
and `size` but is not an array), or a list (has no `shape`). -/
inductive MatArg (K : Type*)
  | none
  | number (x : K)
  | array (X : Nd K)
  | table (r c : ℕ)
  | list

section
variable {K : Type*} [Zero K] [One K] [Mul K]

/-- `np.eye(M)`. -/
def eye (M : ℕ) : Nd K := .mat M M fun i j => if i = j then 1 else 0

/-- `np.zeros((M, M))`. -/
def zeros (M : ℕ) : Nd K := .mat M M fun _ _ => 0

/-- `np.diag`: a vector becomes a diagonal matrix, of a matrix the diagonal is taken. -/
def npDiag : Nd K → Nd K
  | .scal x => .scal x
  | .vec n v => .mat n n fun i j => if i = j then v i else 0
  | .mat r c X => .vec (min r c) fun i => X i i

/-- One of the four blocks — simulation.py 166–175 (`Rcov`), 176–185 (`Qcov`), 186–195 (`C`), 196–205 (`H`); they
differ only in the default. `np.diag` is called when `X.shape[0] == X.size`. -/
def take (M : ℕ) (dflt : Nd K) : MatArg K → Except ArgErr (Nd K)
  | .none => .ok dflt
  | .number x => .ok (.mat M M fun i j => x * if i = j then 1 else 0)
  | .array (.scal _) => .error .index
  | .array (.vec n v) => .ok (npDiag (.vec n v))
  | .array (.mat r c X) => if r = r * c then .ok (npDiag (.mat r c X)) else .ok (.mat r c X)
  | .table _ _ => .error .assertion
  | .list => .error .attribute

end

/-! ### Shapes of results -/

/-- `X.T`. -/
def Shape.t : Shape → Shape
  | .s2 r c => .s2 c r
  | s => s

/-- `X @ Y` (numpy's `matmul`; a number is not an operand). -/
def Shape.mm : Shape → Shape → Option Shape
  | .s1 n, .s1 m => if n = m then some .s0 else none
  | .s1 n, .s2 r c => if n = r then some (.s1 c) else none
  | .s2 r c, .s1 n => if c = n then some (.s1 r) else none
  | .s2 r c, .s2 r' c' => if c = r' then some (.s2 r c') else none
  | _, _ => none

/-- One dimension of the broadcasting rule of numpy: equal, or one of the two is 1. -/
def bcDim (a b : ℕ) : Option ℕ :=
  if a = b then some a else if a = 1 then some b else if b = 1 then some a else none

/-- `X + Y`, `X - Y` with broadcasting (dimensions are aligned at the right). -/
def Shape.bc : Shape → Shape → Option Shape
  | .s0, s => some s
  | s, .s0 => some s
  | .s1 n, .s1 m => (bcDim n m).map .s1
  | .s1 n, .s2 r c => (bcDim n c).map (.s2 r)
  | .s2 r c, .s1 n => (bcDim c n).map (.s2 r)
  | .s2 r c, .s2 r' c' => (bcDim r r').bind fun x => (bcDim c c').map (.s2 x)

/-- `np.linalg.inv` raises unless its argument is square. -/
def Shape.inv : Shape → Option Shape
  | .s2 r c => if r = c then some (.s2 r c) else none
  | _ => none

/-- `C @ Qcov @ C.T` — simulation.py 207, nutils.py 190. -/
def noiseShape (C Q : Shape) : Option Shape := (C.mm Q).bind fun y => y.mm C.t

/-- `P_x_k1_k = A_1_inv @ A_2 @ P_x_k_k @ A_2.T @ A_1_inv.T + C @ Qcov @ C.T` — nutils.py 190. -/
def priorShape (M : ℕ) (P C Q : Shape) : Option Shape :=
  let A := Shape.s2 M M
  (A.mm A).bind fun s => (s.mm P).bind fun s => (s.mm A).bind fun s => (s.mm A).bind fun s =>
    (noiseShape C Q).bind s.bc

/-- `L_x_k1` and `P_zz` — nutils.py 191–192. -/
def gainShape (Pp H R : Shape) : Option (Shape × Shape) :=
  (H.mm Pp).bind fun hp => (hp.mm H.t).bind fun hph => (hph.bc R).bind fun Pzz => Pzz.inv.bind fun Si =>
    (Pp.mm H.t).bind fun ph => (ph.mm Si).map fun L => (L, Pzz)

/-- `P_x_k1_k1 = (I - L_x_k1 @ H) @ P_x_k1_k` — nutils.py 193. -/
def postShape (M : ℕ) (Pp H L : Shape) : Option Shape :=
  (L.mm H).bind fun lh => ((Shape.s2 M M).bc lh).bind fun d => d.mm Pp

/-- `b_hat = A_1 @ (x_k1_k + L_x_k1 @ (Z_next - H @ x_k1_k))` — nutils.py 189, 194–195. -/
def rhsShape (M : ℕ) (Z H L : Shape) : Option Shape :=
  (H.mm (.s1 M)).bind fun hx => (Z.bc hx).bind fun e => (L.mm e).bind fun le =>
    ((Shape.s1 M).bc le).bind fun xh => (Shape.s2 M M).mm xh

/-- Shapes of `(b_hat, P_x_k1_k1, P_zz)` returned by `_kalman_semi_implicit`, `none` for an exception —
nutils.py 186–199. `A_1`, `A_2` are `M × M` and `b` has length `M` (`_semi_implicit_system`, superlink.py
3852–3877). -/
def kernelShape (M : ℕ) (Z P H C Q R : Shape) : Option (Shape × Shape × Shape) :=
  (priorShape M P C Q).bind fun Pp => (gainShape Pp H R).bind fun g =>
    (postShape M Pp H g.1).bind fun Pn => (rhsShape M Z H g.1).map fun bh => (bh, Pn, g.2)

/-- `self.P_x_k_k` after the constructor when `Pxx` is not given — simulation.py 206–207. -/
def initialShape (C Q : Shape) : Option Shape := noiseShape C Q

end Pipedream.Kalman
