import Verif.SweepProps

/-!
# Model of the superlink end relations

`superlink_upstream_head_coefficients`, `superlink_downstream_head_coefficients`,
`superlink_flow_coefficients`, `solve_superlink_flows`, `solve_superlink_depths` of
`/repo/pipedream_solver/nsuperlink.py` and `superlink.py`, one superlink at a time (all these numpy
statements are elementwise in `k`).
-/

namespace Pipedream.Superlink

open Pipedream.Sweep

variable {K : Type*} [Field K] [LinearOrder K]

/-- Head coefficients of the two ends of a superlink: `h = κ Q + λ H + μ`. -/
structure HeadCoef (K : Type*) where
  kappa_u : K
  lam_u : K
  mu_u : K
  kappa_d : K
  lam_d : K
  mu_d : K

/-- `theta_uk`/`theta_dk` — nsuperlink.py 884–887, 939–942: 1 if the superjunction head is at or above
the end invert, else 0. -/
def theta (H z_inv : K) : K := if H ≥ z_inv then 1 else 0

/-- `gamma_uk` — nsuperlink.py 2680–2688. -/
def gammaUk (Q C A g : K) : K := safeDivide (-|Q| * C) (2 * A ^ 2 * g)

/-- `gamma_dk` — nsuperlink.py 2690–2698. -/
def gammaDk (Q C A g : K) : K := safeDivide (|Q| * C) (2 * A ^ 2 * g)

/-- Head coefficients with the default `bc_method='z'` — nsuperlink.py 888–893 and 943–948.
`Hu`, `Hd` are the superjunction heads, `Qu`, `Qd` the current end flows. -/
def headCoefZ (g Hu Hd Qu Qd C_u C_d A_u A_d z_u z_d : K) : HeadCoef K where
  kappa_u := gammaUk Qu C_u A_u g
  lam_u := theta Hu z_u
  mu_u := -(theta Hu z_u) * z_u
  kappa_d := gammaDk Qd C_d A_d g
  lam_d := theta Hd z_d
  mu_d := -(theta Hd z_d) * z_d

/-- `end_method`: `'o'`, or anything else (default `'b'`) — nsuperlink.py 991–1004. -/
inductive EndMethod
  | o
  | b
  deriving DecidableEq

/-- The six recurrence coefficients seen at the ends. -/
structure EndRec (K : Type*) where
  X : K
  Y : K
  Z : K
  U : K
  V : K
  W : K

/-- nsuperlink.py 991–1004; `n` links, local junction numbering. -/
def endRec (m : EndMethod) (co : Coef K) (n : ℕ) (U V W X Y Z : ℕ → K) : EndRec K :=
  match m with
  | .o => ⟨X 0, Y 0, Z 0, U (n-1), V (n-1), W (n-1)⟩
  | .b => ⟨X 0 + co.E 0, Y 0 - co.D 0, Z 0, U (n-1) - co.E n, V (n-1) + co.D n, W (n-1)⟩

variable (r : EndRec K) (hc : HeadCoef K)

/-- `numba_D_k_star` — nsuperlink.py 2554–2563. -/
def DkStar : K := (r.X * hc.kappa_u - 1) * (r.U * hc.kappa_d - 1)
  - (r.Z * hc.kappa_d) * (r.W * hc.kappa_u)

/-- `numba_alpha_uk` — nsuperlink.py 2565–2575. -/
def alphaUk : K :=
  safeDivide (hc.lam_u * ((1 - r.U * hc.kappa_d) * r.X + (r.Z * hc.kappa_d * r.W))) (DkStar r hc)

/-- `numba_beta_uk` — nsuperlink.py 2577–2587. -/
def betaUk : K :=
  safeDivide (hc.lam_d * ((1 - r.U * hc.kappa_d) * r.Z + (r.Z * hc.kappa_d * r.U))) (DkStar r hc)

/-- `numba_chi_uk` — nsuperlink.py 2589–2603. -/
def chiUk : K :=
  let t_0 := (1 - r.U * hc.kappa_d) * (r.Y + r.X * hc.mu_u + r.Z * hc.mu_d)
  let t_1 := (r.Z * hc.kappa_d) * (r.V + r.W * hc.mu_u + r.U * hc.mu_d)
  safeDivide (t_0 + t_1) (DkStar r hc)

/-- `numba_alpha_dk` — nsuperlink.py 2605–2615. -/
def alphaDk : K :=
  safeDivide (hc.lam_u * ((1 - r.X * hc.kappa_u) * r.W + (r.W * hc.kappa_u * r.X))) (DkStar r hc)

/-- `numba_beta_dk` — nsuperlink.py 2617–2627. -/
def betaDk : K :=
  safeDivide (hc.lam_d * ((1 - r.X * hc.kappa_u) * r.U + (r.W * hc.kappa_u * r.Z))) (DkStar r hc)

/-- `numba_chi_dk` — nsuperlink.py 2629–2643. -/
def chiDk : K :=
  let t_0 := (1 - r.X * hc.kappa_u) * (r.V + r.W * hc.mu_u + r.U * hc.mu_d)
  let t_1 := (r.W * hc.kappa_u) * (r.Y + r.X * hc.mu_u + r.Z * hc.mu_d)
  safeDivide (t_0 + t_1) (DkStar r hc)

/-- `solve_superlink_flows` — superlink.py 2965–2985, upstream flow. -/
def Quk (Hu Hd : K) : K := alphaUk r hc * Hu + betaUk r hc * Hd + chiUk r hc

/-- `solve_superlink_flows` — superlink.py 2965–2985, downstream flow. -/
def Qdk (Hu Hd : K) : K := alphaDk r hc * Hu + betaDk r hc * Hd + chiDk r hc

/-- `solve_superlink_depths` — superlink.py 3138–3165, upstream depth. -/
def huk (Hu Hd : K) : K := hc.kappa_u * Quk r hc Hu Hd + hc.lam_u * Hu + hc.mu_u

/-- `solve_superlink_depths` — superlink.py 3138–3165, downstream depth. -/
def hdk (Hu Hd : K) : K := hc.kappa_d * Qdk r hc Hu Hd + hc.lam_d * Hd + hc.mu_d

end Pipedream.Superlink
