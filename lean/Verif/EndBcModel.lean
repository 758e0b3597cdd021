import Verif.LinkModel
import Verif.SuperlinkModel

/-!
# Model of the momentum head relations at the superlink ends (`bc_method='b'`)

`kappa_uk`, `kappa_dk`, `mu_uk`, `mu_dk` of `/repo/pipedream_solver/nsuperlink.py` 2314–2364 and the
choice of the head relation in `superlink_upstream_head_coefficients` /
`superlink_downstream_head_coefficients` (851–957), one superlink at a time (the numpy statements are
elementwise in `k`). The arrays of end areas hold positive numbers wherever theorems use them; a zero
area is a numpy array division, which does not raise.
-/

namespace Pipedream.Superlink

open Pipedream.Link

/-- What the head relation of one end of a superlink reads. `Q` is the current end flow, `Q_prev` the
flow in the saved states. -/
structure EndData where
  Q : ℝ
  Q_prev : ℝ
  dx : ℝ
  A : ℝ
  C : ℝ
  R : ℝ
  n : ℝ
  method : ℤ
  z_inv : ℝ
  S_o : ℝ
  H : ℝ

/-- One element of `kappa_uk` — nsuperlink.py 2314–2327. -/
noncomputable def kappaUk (d : EndData) (dt g : ℝ) : Except PyErr ℝ := do
  let t_0 := -d.dx / g / d.A / dt
  let t_1 ← frictionSlope d.Q d.dx d.A d.R d.n d.method g
  let t_2 := -d.C * |d.Q| / 2 / g / d.A ^ 2
  return t_0 + t_1 + t_2

/-- One element of `kappa_dk` — nsuperlink.py 2329–2342. -/
noncomputable def kappaDk (d : EndData) (dt g : ℝ) : Except PyErr ℝ := do
  let t_0 := d.dx / g / d.A / dt
  let t_1 ← frictionSlope d.Q d.dx d.A d.R d.n d.method g
  let t_2 := d.C * |d.Q| / 2 / g / d.A ^ 2
  return t_0 + t_1 + t_2

/-- One element of `mu_uk` — nsuperlink.py 2344–2353. -/
noncomputable def muUk (d : EndData) (dt g : ℝ) : ℝ :=
  d.Q_prev * d.dx / g / d.A / dt + -(theta d.H d.z_inv) * d.z_inv + d.dx * d.S_o

/-- One element of `mu_dk` — nsuperlink.py 2355–2364. -/
noncomputable def muDk (d : EndData) (dt g : ℝ) : ℝ :=
  -d.Q_prev * d.dx / g / d.A / dt + -(theta d.H d.z_inv) * d.z_inv + -d.dx * d.S_o

/-- `superlink_upstream_head_coefficients` — nsuperlink.py 884–905: the triple (kappa, lambda, mu). -/
noncomputable def upstreamHead (bc : String) (d : EndData) (dt g : ℝ) : Except PyErr (ℝ × ℝ × ℝ) :=
  if bc = "z" then
    .ok (gammaUk d.Q d.C d.A g, theta d.H d.z_inv, -(theta d.H d.z_inv) * d.z_inv)
  else if bc = "b" then do
    let k ← kappaUk d dt g
    return (k, theta d.H d.z_inv, muUk d dt g)
  else .error .valueError

/-- `superlink_downstream_head_coefficients` — nsuperlink.py 939–957. -/
noncomputable def downstreamHead (bc : String) (d : EndData) (dt g : ℝ) :
    Except PyErr (ℝ × ℝ × ℝ) :=
  if bc = "z" then
    .ok (gammaDk d.Q d.C d.A g, theta d.H d.z_inv, -(theta d.H d.z_inv) * d.z_inv)
  else if bc = "b" then do
    let k ← kappaDk d dt g
    return (k, theta d.H d.z_inv, muDk d dt g)
  else .error .valueError

end Pipedream.Superlink
