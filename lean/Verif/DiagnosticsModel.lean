import Verif.NetworkModel
import Verif.LinkModel
import Verif.ControlModel
import Verif.StorageModel
import Mathlib.Analysis.SpecialFunctions.Sqrt

/-!
# Derived quantities a user reads off a model

`_augmented_system`, `superlink_inverse_courant`, `compute_flow_regime` of
`/repo/pipedream_solver/superlink.py`, the storage volumes reported as `V_j`, and one orifice followed
through repeated steps.
-/

namespace Pipedream.Diag

open Pipedream.Network

section augmented

variable {K : Type*} [Field K] [LinearOrder K]

/-- `A_1` of `_augmented_system` — superlink.py 3830, 3840–3841; `L` is `A + O + W + P`. -/
def augA1 (M : ℕ) (L : ℕ → ℕ → K) : ℕ → ℕ → K := fun i j =>
  if i < M ∧ j < M then L i j else if i = M ∧ j = M then 1 else 0

/-- `A_2` of `_augmented_system` — superlink.py 3831, 3843–3846. -/
def augA2 (net : Net K) (dt : K) (D : ℕ → K) : ℕ → ℕ → K := fun i j =>
  if i < net.M then
    if j < net.M then (if i = j then (if net.bc i = false then net.As i / dt else 0) else 0) else D i
  else if j = net.M then 1 else 0

/-- `Q` of `_augmented_system` — superlink.py 3832, 3848–3849. -/
def augQ (M : ℕ) (Q0 : ℕ → K) : ℕ → K := fun i => if i < M then Q0 i else 0

/-- A vector of heads extended by a one. -/
def ext (M : ℕ) (x : ℕ → K) : ℕ → K := fun i => if i < M then x i else 1

end augmented

section courant

/-- Floating point values distinguished here: numbers, infinity, not-a-number. -/
inductive Flt (K : Type*)
  | num (x : K)
  | inf
  | nan

variable {K : Type*} [Field K] [LinearOrder K]

/-- `np.abs(a / b)` on arrays: division by zero gives infinity or, for `0 / 0`, not-a-number. -/
def absDiv (a b : K) : Flt K := if b = 0 then (if a = 0 then .nan else .inf) else .num |a / b|

/-- Mean over the links of superlink `k`: `np.add.at(x_k, _ki, x_ik); x_k /= nk` — superlink.py 3800–3804.
The links of superlink `k` are `i0, …, i0 + n - 1`. -/
def linkMean (i0 n : ℕ) (x : ℕ → K) : K := (∑ i ∈ Finset.range n, x (i0 + i)) / n

/-- One element of `_dt_ck` — superlink.py 3789–3809; `_dx_k` is the sum of the link lengths (756–757). -/
def inverseCourant (i0 n : ℕ) (dx A Q : ℕ → K) : Flt K :=
  absDiv (linkMean i0 n A * ∑ i ∈ Finset.range n, dx (i0 + i)) (linkMean i0 n Q)

end courant

section regime

/-- `Fr` — superlink.py 1165–1169 with the decorator `safe_divide`. -/
noncomputable def froude (g u A B : ℝ) : ℝ := safeDivide (|u| * Real.sqrt B) (Real.sqrt (g * A))

/-- `_sigma_ik` of a link carrying flow `Q` — superlink.py 2055, 2061–2063, velocity by `numba_u_ik`
(nsuperlink.py 2269–2278). -/
noncomputable def damping (g Q A B : ℝ) : ℝ := Link.sigmaOf (froude g (safeDivide Q A) A B)

end regime

section volumes

/-- Heads and reported volumes of the superjunctions. -/
structure HV (K : Type*) where
  H : ℕ → K
  V : ℕ → K

variable {K : Type*} [Field K] [LinearOrder K]

/-- One pass of a step: `compute_storage_volumes` at the start (superlink.py 4030; nsuperlink.py 1615–1649),
then the heads are solved for (superlink.py 4057–4060). `vol j` is the storage curve of superjunction `j`,
`solve` the rest of the step. -/
def passHV (z : ℕ → K) (mn : K) (vol : ℕ → K → K) (solve : HV K → ℕ → K) (s : HV K) : HV K :=
  let s := { s with V := fun j => vol j (Interp.storageDepth (s.H j) (z j) mn) }
  { s with H := solve s }

end volumes

section orifice

open Pipedream.Control

/-- What one step supplies to an orifice: heads before and after the solve, the control signal, its open area,
the step size and the two reported volumes. -/
structure OStep where
  Hu0 : ℝ
  Hd0 : ℝ
  Hu : ℝ
  Hd : ℝ
  u : ℝ
  Ao : ℝ
  dt : ℝ
  Vu : ℝ
  Vd : ℝ

/-- One step of an orifice with current flow `Q` and current coefficients `old`: the linear relation which
enters the head equations (nsuperlink.py 1037–1062), the flow it carries at the new heads and the flow
recorded afterwards (1534–1562). -/
noncomputable def stepO (g Co : ℝ) (o : Orifice) (s : OStep) (st : Lin × ℝ) : Lin × ℝ × ℝ :=
  let l := orificeLin st.1 g st.2 s.Ao Co s.Hu0 s.Hd0 s.u o
  (l, l.eval s.Hu s.Hd, orificeFlow g s.Ao Co s.Hu s.Hd s.u s.Vu s.Vd s.dt o)

/-- Flows through an orifice over a run, from coefficients and flow `st`: per step the flow entering the
head equations and the flow recorded. -/
noncomputable def runO (g Co : ℝ) (o : Orifice) : List OStep → Lin × ℝ → List (ℝ × ℝ)
  | [], _ => []
  | s :: ss, st =>
    let r := stepO g Co o s st
    (r.2.1, r.2.2) :: runO g Co o ss (r.1, r.2.2)

end orifice

end Pipedream.Diag
