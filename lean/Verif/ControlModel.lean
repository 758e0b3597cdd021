import Verif.Basic
import Mathlib.Analysis.SpecialFunctions.Pow.Real
import Mathlib.Analysis.SpecialFunctions.Sqrt

/-!
# Model of orifices, weirs and pumps

`/repo/pipedream_solver/nsuperlink.py` 1037–1131 (drivers), 1534–1613 (flow solves),
2645–2675 (gammas), 2716–2957 (numba kernels). All kernels are elementwise in the control index, so one
control is modelled. Masked writes `arr[mask] = v` become sequential `if mask then v else previous`,
starting from the *old* contents of the coefficient arrays, which the code re-uses between steps.
-/

namespace Pipedream.Control

noncomputable section

/-- A linear flow relation `α H_u + β H_d + χ`. -/
structure Lin where
  alpha : ℝ
  beta : ℝ
  chi : ℝ

/-- Value of the linear relation — the row contribution of a control in the head equations. -/
def Lin.eval (l : Lin) (Hu Hd : ℝ) : ℝ := l.alpha * Hu + l.beta * Hd + l.chi

/-- `_omega` — e.g. nsuperlink.py 2727–2728: 1 when the upstream head is at least the downstream head. -/
def omega (Hu Hd : ℝ) : ℝ := if Hu ≥ Hd then 1 else 0

/-- `(-1)**(1 - _omega)`; `omega` is 0 or 1. -/
def sgn (Hu Hd : ℝ) : ℝ := if Hu ≥ Hd then 1 else -1

/-- Static data of an orifice: `_z_o`, `_z_inv_j[_J_uo]`, `_tau_o`, `_y_max_o`, `_unidir_o`. -/
structure Orifice where
  z_o : ℝ
  z_inv : ℝ
  tau : ℝ
  y_max : ℝ
  unidir : Bool

/-- `gamma_o` — nsuperlink.py 2645–2654. -/
def gammaO (Q Ao Co g : ℝ) : ℝ := safeDivide (2 * g * Co ^ 2 * Ao ^ 2) |Q|

/-- The mask logic common to `numba_orifice_flow_coefficients` (nsuperlink.py 2729–2766) and
`numba_solve_orifice_flows` (2785–2817); the two differ only in `γ` and in the initial contents `old`. -/
def orificeCoef (old : Lin) (γ Hu Hd u : ℝ) (o : Orifice) : Lin :=
  let ω := omega Hu Hd
  let cond_0 : Prop := ω * Hu + (1 - ω) * Hd > o.z_o + o.z_inv + (o.tau * o.y_max * u)
  let cond_1 : Prop := (1 - ω) * Hu + ω * Hd > o.z_o + o.z_inv + (o.tau * o.y_max * u / 2)
  let cond_2 : Prop := ω * Hu + (1 - ω) * Hd > o.z_o + o.z_inv
  let cond_3 : Prop := Hd ≥ Hu ∧ o.unidir = true
  have : Decidable cond_0 := Classical.dec _
  have : Decidable cond_1 := Classical.dec _
  have : Decidable cond_2 := Classical.dec _
  have : Decidable cond_3 := Classical.dec _
  let r : Lin := if cond_0 ∧ cond_1 then ⟨γ, -γ, 0⟩ else old
  let r : Lin := if cond_0 ∧ ¬ cond_1 then
    ⟨γ * ω * sgn Hu Hd, γ * (1 - ω) * sgn Hu Hd,
      γ * sgn Hu Hd * (-o.z_inv - o.z_o - o.tau * o.y_max * u / 2)⟩ else r
  let r : Lin := if ¬ cond_0 ∧ cond_2 then
    ⟨γ * ω * sgn Hu Hd, γ * (1 - ω) * sgn Hu Hd, γ * sgn Hu Hd * (-o.z_inv - o.z_o)⟩ else r
  if (¬ cond_0 ∧ ¬ cond_2) ∨ cond_3 then ⟨0, 0, 0⟩ else r

/-- `numba_orifice_flow_coefficients` — nsuperlink.py 2716–2764; `Q` is the current orifice flow. -/
def orificeLin (old : Lin) (g Q Ao Co Hu Hd u : ℝ) (o : Orifice) : Lin :=
  orificeCoef old (gammaO Q Ao Co g) Hu Hd u o

/-- `numba_solve_orifice_flows` — nsuperlink.py 2766–2821. -/
def orificeRaw (g Ao Co Hu Hd u : ℝ) (o : Orifice) : ℝ :=
  let l := orificeCoef ⟨0, 0, 0⟩ (2 * g * Co ^ 2 * Ao ^ 2) Hu Hd u o
  sgn Hu Hd * Real.sqrt |l.alpha * Hu + l.beta * Hd + l.chi|

/-- `np.sign`. -/
def npSign (x : ℝ) : ℝ := if x > 0 then 1 else if x < 0 then -1 else 0

/-- The volume limit of `solve_orifice_flows` — nsuperlink.py 1557–1560. -/
def orificeLimit (Q Hu Hd Vu Vd dt : ℝ) : ℝ :=
  let Qmax := (if Hu > Hd then Vu else Vd) / dt
  npSign Q * min |Q| Qmax

/-- `solve_orifice_flows` — nsuperlink.py 1534–1562, one orifice. -/
def orificeFlow (g Ao Co Hu Hd u Vu Vd dt : ℝ) (o : Orifice) : ℝ :=
  orificeLimit (orificeRaw g Ao Co Hu Hd u o) Hu Hd Vu Vd dt

/-- Static data of a weir: `_z_w`, `_z_inv_j[_J_uw]`, `_y_max_w`, `_L_w`, `_s_w`, `_Cwr`, `_Cwt`. -/
structure Weir where
  z_w : ℝ
  z_inv : ℝ
  y_max : ℝ
  L : ℝ
  s : ℝ
  Cwr : ℝ
  Cwt : ℝ

/-- Elevation of the (raised) weir crest, the right-hand side of `cond_0`, `cond_1`. -/
def Weir.crest (w : Weir) (u : ℝ) : ℝ := w.z_w + w.z_inv + (1 - u) * w.y_max

/-- Effective head `_Hw` — nsuperlink.py 2836–2850 and 2881–2896 (identical). The masks `a`, `b`, `c` are
exhaustive, and every entry is overwritten. -/
def weirHead (Hu Hd u : ℝ) (w : Weir) : ℝ :=
  let ω := omega Hu Hd
  let cond_0 : Prop := ω * Hu + (1 - ω) * Hd > w.z_w + w.z_inv + (1 - u) * w.y_max
  let cond_1 : Prop := (1 - ω) * Hu + ω * Hd > w.z_w + w.z_inv + (1 - u) * w.y_max
  have : Decidable cond_0 := Classical.dec _
  have : Decidable cond_1 := Classical.dec _
  |if cond_0 ∧ cond_1 then Hu - Hd
   else if cond_0 then ω * Hu + (1 - ω) * Hd + (-w.z_inv - w.z_w - (1 - u) * w.y_max)
   else 0|

/-- Squared conveyance `(Cwr L H + Cwt s H²)²` — nsuperlink.py 2662, 2897. -/
def weirConv (w : Weir) (H : ℝ) : ℝ := (w.Cwr * w.L * H + w.Cwt * w.s * H ^ 2) ^ 2

/-- `gamma_w` — nsuperlink.py 2656–2665. -/
def gammaW (Q H : ℝ) (w : Weir) : ℝ := safeDivide (weirConv w H) |Q|

/-- `numba_weir_flow_coefficients` — nsuperlink.py 2823–2868. -/
def weirLin (old : Lin) (Q Hu Hd u : ℝ) (w : Weir) : Lin :=
  let ω := omega Hu Hd
  let cond_0 : Prop := ω * Hu + (1 - ω) * Hd > w.z_w + w.z_inv + (1 - u) * w.y_max
  let cond_1 : Prop := (1 - ω) * Hu + ω * Hd > w.z_w + w.z_inv + (1 - u) * w.y_max
  have : Decidable cond_0 := Classical.dec _
  have : Decidable cond_1 := Classical.dec _
  let γ := gammaW Q (weirHead Hu Hd u w) w
  let r : Lin := if cond_0 ∧ cond_1 then ⟨γ, -γ, 0⟩ else old
  let r : Lin := if cond_0 ∧ ¬ cond_1 then
    ⟨γ * ω * sgn Hu Hd, γ * (1 - ω) * sgn Hu Hd,
      γ * sgn Hu Hd * (-w.z_inv - w.z_w - (1 - u) * w.y_max)⟩ else r
  if ¬ cond_0 then ⟨0, 0, 0⟩ else r

/-- `numba_solve_weir_flows` — nsuperlink.py 2870–2900. -/
def weirFlow (Hu Hd u : ℝ) (w : Weir) : ℝ :=
  let H := weirHead Hu Hd u w
  sgn Hu Hd * Real.sqrt (weirConv w H * H)

/-- Static data of a pump: `_z_p`, `_z_inv_j[_J_up]`, `_dHp_max`, `_dHp_min`, `_a_p`, `_b_p`, `_c_p`. -/
structure Pump where
  z_p : ℝ
  z_inv : ℝ
  dHmax : ℝ
  dHmin : ℝ
  a : ℝ
  b : ℝ
  c : ℝ

/-- Clipped head difference — nsuperlink.py 2919–2920 and 2951–2952: first the upper, then the lower
bound. -/
def pumpHead (Hu Hd : ℝ) (p : Pump) : ℝ :=
  let d := Hd - Hu
  let d := if d > p.dHmax then p.dHmax else d
  if d < p.dHmin then p.dHmin else d

/-- `gamma_p` — nsuperlink.py 2667–2676. -/
def gammaP (Q u : ℝ) (p : Pump) : ℝ := safeDivide u (p.b * |Q| ^ (p.c - 1))

/-- `numba_pump_flow_coefficients` — nsuperlink.py 2902–2939. -/
def pumpLin (old : Lin) (Q Hu Hd u : ℝ) (p : Pump) : Lin :=
  let cond_0 : Prop := Hu > p.z_inv + p.z_p
  let cond_1 : Prop := Hd - Hu > p.dHmin ∧ Hd - Hu < p.dHmax
  have : Decidable cond_0 := Classical.dec _
  have : Decidable cond_1 := Classical.dec _
  let γ := gammaP Q u p
  let r : Lin := if cond_0 ∧ cond_1 then ⟨γ, -γ, γ * p.a⟩ else old
  let r : Lin := if cond_0 ∧ ¬ cond_1 then ⟨0, 0, γ * (p.a - pumpHead Hu Hd p)⟩ else r
  if ¬ cond_0 then ⟨0, 0, 0⟩ else r

/-- `numba_solve_pump_flows` — nsuperlink.py 2941–2957. The base of the power is assumed non-negative
in the theorems (numpy returns NaN otherwise). -/
def pumpFlow (Hu Hd u : ℝ) (p : Pump) : ℝ :=
  if Hu > p.z_inv + p.z_p then (u / p.b * (p.a - pumpHead Hu Hd p)) ^ (1 / p.c) else 0

end

end Pipedream.Control
