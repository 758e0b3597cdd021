import Verif.BaseSweepModel

/-!
# Velocities, link and junction coefficients of the base class

`SuperLink.node_velocities`, `link_coeffs`, `node_coeffs` (`superlink.py:1998-2159`) with the functions
`superlink.py:1136-1230`. They are array expressions, so nothing is raised: `x / 0` is infinite or undefined in numpy,
theorems carry the condition that the divisor does not vanish wherever the value is not discarded by
`safe_divide` (1124–1134). The arrays are those of the numba class (`Link.LinkIn`, `Link.NodeIn`); `x.Qnext` is
`self._Q_ik`, `y.h` stands for `self._h_Ik` here.
-/

namespace Pipedream.Base

open Pipedream.Sweep Pipedream.Topology Pipedream.Link

/-- One element of `u_ik` — superlink.py 1136–1143. -/
noncomputable def u_ik (Q A : ℝ) : ℝ :=
  let den := if 0 < A then A else 0
  if den ≠ 0 then Q / den else 0

/-- One element of `u_Ik` and of `u_Ip1k` (same formula, `dx'`, `u'` of the other link) — superlink.py 1145–1163. -/
noncomputable def u_mid (dx u' dx' u : ℝ) : ℝ :=
  let num := dx * u' + dx' * u
  let den := dx + dx'
  if den ≠ 0 then num / den else 0

/-- `_u_Ik` after `node_velocities` — superlink.py 2019–2028. -/
noncomputable def uI (t : Tables) (dx u : ℕ → ℝ) (i : ℕ) : ℝ :=
  if t.isStart (t.Ik i) then u i
  else
    let b := t.backwardIi (t.Ik i)
    u_mid (dx i) (u b) (dx b) (u i)

/-- `_u_Ip1k` after `node_velocities` — superlink.py 2020, 2029–2034. -/
noncomputable def uIp1 (t : Tables) (dx u : ℕ → ℝ) (i : ℕ) : ℝ :=
  if t.isEnd (t.Ip1k i) then u i
  else
    let f := t.forwardIi (t.Ip1k i)
    u_mid (dx i) (u f) (dx f) (u i)

/-- One element of `b_ik` — superlink.py 1184–1203. -/
noncomputable def b_ik (dx dt n Q A R A_c C a c : ℝ) (ctrl : Bool) (sigma g : ℝ) : ℝ :=
  let t_0 := dx / dt * sigma
  let t_1 := if 0 < A then g * n ^ 2 * |Q| * dx / A / R ^ (4 / 3 : ℝ) else 0
  let t_2 := if ctrl then A * |Q| / A_c ^ 2 / C ^ 2 else 0
  t_0 + t_1 + t_2 - a - c

/-- One element of `P_ik` — superlink.py 1202–1208. -/
noncomputable def P_ik (Q dx dt A S_o sigma g : ℝ) : ℝ := Q * dx / dt * sigma + g * A * S_o * dx

/-- `_sigma_ik` inside `link_coeffs` — superlink.py 2086–2092. -/
def sigma (damping : Bool) (x : LinkIn) (i : ℕ) : ℝ := if damping then x.sigma i else 1

/-- `_a_ik` after `link_coeffs` — superlink.py 2097; `a_ik` 1171–1175 has the formula of the numba class. -/
noncomputable def a (t : Tables) (damping : Bool) (x : LinkIn) (i : ℕ) : ℝ :=
  aIk (uI t x.dx (fun i => u_ik (x.Qnext i) (x.A i)) i) (sigma damping x i)

/-- `_c_ik` after `link_coeffs` — superlink.py 2098; `c_ik` 1177–1181. -/
noncomputable def c (t : Tables) (damping : Bool) (x : LinkIn) (i : ℕ) : ℝ :=
  cIk (uIp1 t x.dx (fun i => u_ik (x.Qnext i) (x.A i)) i) (sigma damping x i)

/-- `_b_ik` after `link_coeffs` — superlink.py 2099–2100: the damping coefficient is not passed, so the default
`sigma_ik=1` (1185) applies; nor is there a choice of friction law. -/
noncomputable def b (t : Tables) (damping : Bool) (x : LinkIn) (g : ℝ) (i : ℕ) : ℝ :=
  b_ik (x.dx i) x.dt (x.n i) (x.Qnext i) (x.A i) (x.R i) (x.A_c i) (x.C i) (a t damping x i) (c t damping x i) (x.ctrl i)
    1 g

/-- `_P_ik` after `link_coeffs` — superlink.py 2101–2102: the current flow, where the numba class takes the flow at
the start of the step. -/
noncomputable def P (damping : Bool) (x : LinkIn) (g : ℝ) (i : ℕ) : ℝ :=
  P_ik (x.Qnext i) (x.dx i) x.dt (x.A i) (x.S_o i) (sigma damping x i) g

/-- `_E_Ik[I]` after `node_coeffs` — superlink.py 2133–2145; `E_Ik` 1213–1221 has the formula of the numba class.
Three writes at `start_nodes`, `end_nodes`, `middle_nodes` (418: neither start nor end). -/
noncomputable def E (t : Tables) (y : NodeIn) (I : ℕ) : ℝ :=
  if t.isEnd I then EIk 0 0 (y.B (t.backwardIi I)) (y.dx (t.backwardIi I)) (y.A_S I) y.dt
  else if t.isStart I then EIk (y.B (t.forwardIi I)) (y.dx (t.forwardIi I)) 0 0 (y.A_S I) y.dt
  else EIk (y.B (t.forwardIi I)) (y.dx (t.forwardIi I)) (y.B (t.backwardIi I)) (y.dx (t.backwardIi I)) (y.A_S I) y.dt

/-- `_D_Ik[I]` after `node_coeffs` — superlink.py 2146–2157. -/
noncomputable def D (t : Tables) (y : NodeIn) (I : ℕ) : ℝ :=
  if t.isEnd I then
    DIk (y.Q_0 I) 0 0 (y.B (t.backwardIi I)) (y.dx (t.backwardIi I)) (y.A_S I) (y.h I) y.dt
  else if t.isStart I then
    DIk (y.Q_0 I) (y.B (t.forwardIi I)) (y.dx (t.forwardIi I)) 0 0 (y.A_S I) (y.h I) y.dt
  else
    DIk (y.Q_0 I) (y.B (t.forwardIi I)) (y.dx (t.forwardIi I)) (y.B (t.backwardIi I)) (y.dx (t.backwardIi I))
      (y.A_S I) (y.h I) y.dt

/-- The coefficient arrays of the base class. -/
noncomputable def coefs (t : Tables) (damping : Bool) (x : LinkIn) (y : NodeIn) (g : ℝ) : Coef ℝ where
  a := a t damping x
  b := b t damping x g
  c := c t damping x
  P := P damping x g
  A := x.A
  E := E t y
  D := D t y

end Pipedream.Base
