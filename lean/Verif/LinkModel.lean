import Verif.SweepProps
import Mathlib.Analysis.SpecialFunctions.Pow.Real
import Mathlib.Analysis.SpecialFunctions.Log.Base

/-!
# Model of the link and junction coefficients

`friction_slope`, `numba_a_ik`, `numba_b_ik`, `numba_c_ik`, `numba_P_ik`, `E_Ik`, `D_Ik`,
`numba_node_coeffs`, `numba_u_ik`, `numba_u_Ik`, `numba_u_Ip1k` of
`/repo/pipedream_solver/nsuperlink.py`, and `compute_flow_regime` of `superlink.py`.
Reals instead of floats.  Scalar division by zero inside a numba function raises
`ZeroDivisionError` (numba's default error model), modelled by `PyErr.zeroDivision`.
-/

namespace Pipedream.Link

open Pipedream.Sweep

/-- Python exceptions that the modelled code can raise. -/
inductive PyErr
  | zeroDivision
  | valueError
  | typeError
  deriving DecidableEq, Repr

/-- Scalar `/` in a numba function: raises on a zero denominator. -/
noncomputable def pyDiv (x y : ℝ) : Except PyErr ℝ := if y = 0 then .error .zeroDivision else .ok (x / y)

/-- Kinematic viscosity constant, nsuperlink.py 2048. -/
noncomputable def nuVisc : ℝ := 0.0000010034

/-- `friction_slope` — nsuperlink.py 2034–2057. `log10` is `Real.logb 10`, `**` with a fractional
exponent is `Real.rpow` (its base is non-negative wherever theorems use it). Divisions are checked in
the order in which the code performs them. -/
noncomputable def frictionSlope (Q dx A R n : ℝ) (method : ℤ) (g : ℝ) : Except PyErr ℝ :=
  if 0 < A then
    if method = 0 then do
      let t ← pyDiv (g * n ^ 2 * |Q| * dx) A
      pyDiv t (R ^ (4 / 3 : ℝ))
    else if method = 1 then do
      let t ← pyDiv (1.354 * g * |Q| ^ (0.85 : ℝ) * dx) (A ^ (0.85 : ℝ))
      let t ← pyDiv t (n ^ (1.85 : ℝ))
      pyDiv t (R ^ (1.1655 : ℝ))
    else if method = 2 then do
      let v ← pyDiv |Q| A
      let Re := v * 4 * R / nuVisc
      let rel ← pyDiv n (3.7 * 4 * R)
      let re ← pyDiv 5.74 (Re ^ (0.9 : ℝ))
      let f ← pyDiv 0.25 ((Real.logb 10 (rel + re)) ^ 2)
      pyDiv (0.01274 * g * f * |Q| * dx) (A * R)
    else .error .valueError
  else .ok 0

/-- `numba_a_ik` — nsuperlink.py 2059–2065. -/
noncomputable def aIk (u_Ik sigma : ℝ) : ℝ := -(max u_Ik 0) * sigma

/-- `numba_c_ik` — nsuperlink.py 2067–2073. -/
noncomputable def cIk (u_Ip1k sigma : ℝ) : ℝ := -(max (-u_Ip1k) 0) * sigma

/-- One element of `numba_b_ik` — nsuperlink.py 2075–2095. `t_2` is a numpy array expression
(no exception); theorems require `A_c ≠ 0` on control links. -/
noncomputable def bIk (dx dt n Q A R A_c C a c : ℝ) (ctrl : Bool) (sigma : ℝ) (method : ℤ) (g : ℝ) :
    Except PyErr ℝ := do
  let t_0 := dx / dt * sigma
  let t_1 ← frictionSlope Q dx A R n method g
  let t_2 := if ctrl then C * A * |Q| / A_c ^ 2 else 0
  return t_0 + t_1 + t_2 - a - c

/-- One element of `numba_P_ik` — nsuperlink.py 2097–2105. -/
noncomputable def PIk (Q dx dt A S_o sigma g : ℝ) : ℝ := Q * dx / dt * sigma + g * A * S_o * dx

/-- `E_Ik` — nsuperlink.py 2107–2116. -/
noncomputable def EIk (B_ik dx_ik B_im1k dx_im1k A_SIk dt : ℝ) : ℝ :=
  (B_ik * dx_ik / 2 + B_im1k * dx_im1k / 2 + A_SIk) / dt

/-- `D_Ik` — nsuperlink.py 2118–2130. -/
noncomputable def DIk (Q_0 B_ik dx_ik B_im1k dx_im1k A_SIk h dt : ℝ) : ℝ :=
  Q_0 + (B_ik * dx_ik / 2 + B_im1k * dx_im1k / 2 + A_SIk) * (h / dt)

/-- Arrays read by `numba_node_coeffs`. -/
structure NodeIn where
  Q_0 : ℕ → ℝ
  B : ℕ → ℝ
  h : ℕ → ℝ
  dx : ℕ → ℝ
  A_S : ℕ → ℝ
  B_uk : ℕ → ℝ
  B_dk : ℕ → ℝ
  dx_uk : ℕ → ℝ
  dx_dk : ℕ → ℝ
  dt : ℝ

/-- Index arrays read by `numba_node_coeffs` (built in superlink.py 405–432). -/
structure NodeIdx where
  kI : ℕ → ℕ
  fwd : ℕ → ℕ
  bwd : ℕ → ℕ
  isStart : ℕ → Bool
  isEnd : ℕ → Bool

/-- `numba_node_coeffs` — nsuperlink.py 2132–2160: the value written to `_E_Ik[I]`. Each iteration of
the loop writes entry `I` only and reads no written entry, so the loop is modelled as a function. -/
noncomputable def nodeE (x : NodeIn) (ix : NodeIdx) (I : ℕ) : ℝ :=
  let k := ix.kI I
  if ix.isStart I then
    let i := ix.fwd I
    EIk (x.B i) (x.dx i) (x.B_uk k) (x.dx_uk k) (x.A_S I) x.dt
  else if ix.isEnd I then
    let im1 := ix.bwd I
    EIk (x.B_dk k) (x.dx_dk k) (x.B im1) (x.dx im1) (x.A_S I) x.dt
  else
    let i := ix.fwd I
    let im1 := i - 1
    EIk (x.B i) (x.dx i) (x.B im1) (x.dx im1) (x.A_S I) x.dt

/-- `numba_node_coeffs` — nsuperlink.py 2132–2160: the value written to `_D_Ik[I]`. -/
noncomputable def nodeD (x : NodeIn) (ix : NodeIdx) (I : ℕ) : ℝ :=
  let k := ix.kI I
  if ix.isStart I then
    let i := ix.fwd I
    DIk (x.Q_0 I) (x.B i) (x.dx i) (x.B_uk k) (x.dx_uk k) (x.A_S I) (x.h I) x.dt
  else if ix.isEnd I then
    let im1 := ix.bwd I
    DIk (x.Q_0 I) (x.B_dk k) (x.dx_dk k) (x.B im1) (x.dx im1) (x.A_S I) (x.h I) x.dt
  else
    let i := ix.fwd I
    let im1 := i - 1
    DIk (x.Q_0 I) (x.B i) (x.dx i) (x.B im1) (x.dx im1) (x.A_S I) (x.h I) x.dt

/-! ### Velocities -/

/-- One element of `numba_u_ik` — nsuperlink.py 2267–2278. -/
noncomputable def uik (Q A : ℝ) : ℝ := if A ≠ 0 then Q / A else 0

/-- `numba_u_Ik` — nsuperlink.py 2280–2295: velocity at the upstream junction of link `i`.
(The first link of the array is always a superlink start, so index `i - 1` never wraps.) -/
noncomputable def uIk (dx u : ℕ → ℝ) (linkStart : ℕ → Bool) (i : ℕ) : ℝ :=
  if linkStart i then u i
  else
    let im1 := i - 1
    let num := dx i * u im1 + dx im1 * u i
    let den := dx i + dx im1
    if den ≠ 0 then num / den else 0

/-- `numba_u_Ip1k` — nsuperlink.py 2297–2312. -/
noncomputable def uIp1k (dx u : ℕ → ℝ) (linkEnd : ℕ → Bool) (i : ℕ) : ℝ :=
  if linkEnd i then u i
  else
    let ip1 := i + 1
    let num := dx i * u ip1 + dx ip1 * u i
    let den := dx i + dx ip1
    if den ≠ 0 then num / den else 0

/-- Inertial damping coefficient as a function of the link Froude number —
superlink.py 2060–2063 (three successive array writes; with `inertial_damping=False` the array keeps
its initial value 1, superlink.py 642). -/
noncomputable def sigmaOf (Fr : ℝ) : ℝ :=
  let s := 2 * (1 - Fr)
  let s := if Fr < 0.5 then 1 else s
  if Fr > 1 then 0 else s

/-! ### All coefficients of a step -/

/-- Arrays read by `link_coeffs` — nsuperlink.py 724–760. -/
structure LinkIn where
  dx : ℕ → ℝ
  n : ℕ → ℝ
  Qprev : ℕ → ℝ
  Qnext : ℕ → ℝ
  A : ℕ → ℝ
  R : ℕ → ℝ
  A_c : ℕ → ℝ
  C : ℕ → ℝ
  ctrl : ℕ → Bool
  sigma : ℕ → ℝ
  method : ℕ → ℤ
  S_o : ℕ → ℝ
  linkStart : ℕ → Bool
  linkEnd : ℕ → Bool
  dt : ℝ

/-- `node_velocities` (nsuperlink.py 699–722) followed by `a_ik`. -/
noncomputable def LinkIn.a (x : LinkIn) (i : ℕ) : ℝ :=
  aIk (uIk x.dx (fun i => uik (x.Qnext i) (x.A i)) x.linkStart i) (x.sigma i)

/-- `node_velocities` (nsuperlink.py 699–722) followed by `c_ik`. -/
noncomputable def LinkIn.c (x : LinkIn) (i : ℕ) : ℝ :=
  cIk (uIp1k x.dx (fun i => uik (x.Qnext i) (x.A i)) x.linkEnd i) (x.sigma i)

/-- `link_coeffs` — nsuperlink.py 751–753: coefficient `b`, or the exception raised. -/
noncomputable def LinkIn.b (x : LinkIn) (g : ℝ) (i : ℕ) : Except PyErr ℝ :=
  bIk (x.dx i) x.dt (x.n i) (x.Qnext i) (x.A i) (x.R i) (x.A_c i) (x.C i) (x.a i) (x.c i) (x.ctrl i)
    (x.sigma i) (x.method i) g

/-- `link_coeffs` — nsuperlink.py 754–755. -/
noncomputable def LinkIn.P (x : LinkIn) (g : ℝ) (i : ℕ) : ℝ :=
  PIk (x.Qprev i) (x.dx i) x.dt (x.A i) (x.S_o i) (x.sigma i) g

/-- Successful outcome of `link_coeffs` + `node_coeffs` on links `0 … N-1`: no link raised, and the
arrays hold the coefficients. -/
def StepCoefs (g : ℝ) (N : ℕ) (x : LinkIn) (y : NodeIn) (ix : NodeIdx) (co : Coef ℝ) : Prop :=
  (∀ i, i < N → co.a i = x.a i ∧ x.b g i = .ok (co.b i) ∧ co.c i = x.c i ∧ co.P i = x.P g i ∧
    co.A i = x.A i) ∧
  (∀ I, co.E I = nodeE y ix I) ∧ (∀ I, co.D I = nodeD y ix I)

end Pipedream.Link
