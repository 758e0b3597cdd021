import Verif.SuperlinkModel
import Verif.LinkModel

/-!
# The end relations of the base class

`SuperLink.superlink_upstream_head_coefficients`, `superlink_downstream_head_coefficients`,
`superlink_flow_coefficients`, `solve_superlink_flows`, `solve_superlink_depths` (`superlink.py:2304-2480, 2965-2985,
3138-3165`) with the functions `superlink.py:1395-1543`, one superlink at a time (the statements are elementwise).
-/

namespace Pipedream.Base

open Pipedream.Sweep Pipedream.Superlink

variable {K : Type*} [Field K] [LinearOrder K]

/-- `gamma_uk` — superlink.py 1395–1402. -/
def gammaU (Q C A g : K) : K := safeDivide (-|Q|) (2 * C ^ 2 * A ^ 2 * g)

/-- `gamma_dk` — superlink.py 1404–1411. -/
def gammaD (Q C A g : K) : K := safeDivide |Q| (2 * C ^ 2 * A ^ 2 * g)

/-- `kappa_uk` — superlink.py 1413–1420. -/
def kappaU (A dH Q B : K) : K := safeDivide (2 * A * dH) (Q * (2 * dH * B - A))

/-- `lambda_uk` — superlink.py 1422–1429. -/
def lambdaU (A dH B : K) : K := safeDivide (-A) (2 * dH * B - A)

/-- `mu_uk` — superlink.py 1431–1438. -/
def muU (A dH B z : K) : K := safeDivide (A * (dH + z)) (2 * dH * B - A)

/-- `kappa_dk` — superlink.py 1440–1447. -/
def kappaD (A dH Q B : K) : K := safeDivide (2 * A * dH) (Q * (2 * dH * B + A))

/-- `lambda_dk` — superlink.py 1449–1456. -/
def lambdaD (A dH B : K) : K := safeDivide A (2 * dH * B + A)

/-- `mu_dk` — superlink.py 1458–1465. -/
def muD (A dH B z : K) : K := safeDivide (A * (dH - z)) (2 * dH * B + A)

/-- What the end relations read at one end: superjunction head `H`, flow `Q`, discharge coefficient `C`, area `A`, top
width `B`, invert `z`, depth `h` of the end junction. -/
structure End (K : Type*) where
  H : K
  Q : K
  C : K
  A : K
  B : K
  z : K
  h : K

/-- Head coefficients of both ends — superlink.py 2304–2391, by `_bc_method`. The base class
keeps the indicators `theta` out of the head coefficients; `superlink_flow_coefficients` (2440–2443) computes them and
passes them on. -/
def heads (m : String) (g : K) (u d : End K) : Except Link.PyErr (HeadCoef K) :=
  if m = "z" then .ok
    { kappa_u := gammaU u.Q u.C u.A g, lam_u := 1, mu_u := -u.z
      kappa_d := gammaD d.Q d.C d.A g, lam_d := 1, mu_d := -d.z }
  else if m = "j" then
    let dHu := u.H - u.h - u.z
    let dHd := d.h + d.z - d.H
    .ok
    { kappa_u := kappaU u.A dHu u.Q u.B, lam_u := lambdaU u.A dHu u.B, mu_u := muU u.A dHu u.B u.z
      kappa_d := kappaD d.A dHd d.Q d.B, lam_d := lambdaD d.A dHd d.B, mu_d := muD d.A dHd d.B d.z }
  else .error .valueError

section flow
variable (r : EndRec K) (hc : HeadCoef K) (θu θd : K)

/-- `alpha_uk` — superlink.py 1475–1484. -/
def alphaU : K :=
  safeDivide (θu * ((1 - r.U * hc.kappa_d) * r.X * hc.lam_u + (r.Z * hc.kappa_d * r.W * hc.lam_u))) (DkStar r hc)

/-- `beta_uk` — superlink.py 1486–1495. -/
def betaU : K :=
  safeDivide (θd * ((1 - r.U * hc.kappa_d) * r.Z * hc.lam_d + (r.Z * hc.kappa_d * r.U * hc.lam_d))) (DkStar r hc)

/-- `chi_uk` — superlink.py 1497–1508. -/
def chiU : K :=
  let t_0 := (1 - r.U * hc.kappa_d) * (r.Y + θu * r.X * hc.mu_u + θd * r.Z * hc.mu_d)
  let t_1 := (r.Z * hc.kappa_d) * (r.V + θu * r.W * hc.mu_u + θd * r.U * hc.mu_d)
  safeDivide (t_0 + t_1) (DkStar r hc)

/-- `alpha_dk` — superlink.py 1510–1519. -/
def alphaD : K :=
  safeDivide (θu * ((1 - r.X * hc.kappa_u) * r.W * hc.lam_u + (r.W * hc.kappa_u * r.X * hc.lam_u))) (DkStar r hc)

/-- `beta_dk` — superlink.py 1521–1530. -/
def betaD : K :=
  safeDivide (θd * ((1 - r.X * hc.kappa_u) * r.U * hc.lam_d + (r.W * hc.kappa_u * r.Z * hc.lam_d))) (DkStar r hc)

/-- `chi_dk` — superlink.py 1532–1543. -/
def chiD : K :=
  let t_0 := (1 - r.X * hc.kappa_u) * (r.V + θu * r.W * hc.mu_u + θd * r.U * hc.mu_d)
  let t_1 := (r.W * hc.kappa_u) * (r.Y + θu * r.X * hc.mu_u + θd * r.Z * hc.mu_d)
  safeDivide (t_0 + t_1) (DkStar r hc)

/-- `solve_superlink_flows` — superlink.py 2965–2985, upstream. -/
def Qu (Hu Hd : K) : K := alphaU r hc θu * Hu + betaU r hc θd * Hd + chiU r hc θu θd

/-- `solve_superlink_flows` — superlink.py 2965–2985, downstream. -/
def Qd (Hu Hd : K) : K := alphaD r hc θu * Hu + betaD r hc θd * Hd + chiD r hc θu θd

/-- `solve_superlink_depths` — superlink.py 3157, upstream: the indicators are not used. -/
def hu (Hu Hd : K) : K := hc.kappa_u * Qu r hc θu θd Hu Hd + hc.lam_u * Hu + hc.mu_u

/-- `solve_superlink_depths` — superlink.py 3158, downstream. -/
def hd (Hu Hd : K) : K := hc.kappa_d * Qd r hc θu θd Hu Hd + hc.lam_d * Hd + hc.mu_d

end flow

end Pipedream.Base
