import Verif.ControlModel

/-!
# Model of orifices, weirs and pumps in the pure-Python class

`/repo/pipedream_solver/superlink.py` 599–634 (attributes of pumps), 1563–1588 (gammas), 2481–2670 (coefficients),
2987–3136 (flows). Elementwise as in `Verif.ControlModel`, except for the limits of the pump heads, where the masked
assignment involves all pumps.
-/

namespace Pipedream.Control

noncomputable section

/-- The masks of `orifice_flow_coefficients` (superlink.py 2507–2542) and of `solve_orifice_flows` (3015–3050), which
do not mention `_unidir_o`; the two differ in `γ` and in the initial contents. -/
def baseOrificeCoef (old : Lin) (γ Hu Hd u : ℝ) (o : Orifice) : Lin :=
  let ω := omega Hu Hd
  let cond_0 : Prop := ω * Hu + (1 - ω) * Hd > o.z_o + o.z_inv + (o.tau * o.y_max * u)
  let cond_1 : Prop := (1 - ω) * Hu + ω * Hd > o.z_o + o.z_inv + (o.tau * o.y_max * u / 2)
  let cond_2 : Prop := ω * Hu + (1 - ω) * Hd > o.z_o + o.z_inv
  have : Decidable cond_0 := Classical.dec _
  have : Decidable cond_1 := Classical.dec _
  have : Decidable cond_2 := Classical.dec _
  let r : Lin := if cond_0 ∧ cond_1 then ⟨γ, -γ, 0⟩ else old
  let r : Lin := if cond_0 ∧ ¬ cond_1 then
    ⟨γ * ω * sgn Hu Hd, γ * (1 - ω) * sgn Hu Hd,
      γ * sgn Hu Hd * (-o.z_inv - o.z_o - o.tau * o.y_max * u / 2)⟩ else r
  let r : Lin := if ¬ cond_0 ∧ cond_2 then
    ⟨γ * ω * sgn Hu Hd, γ * (1 - ω) * sgn Hu Hd, γ * sgn Hu Hd * (-o.z_inv - o.z_o)⟩ else r
  if ¬ cond_0 ∧ ¬ cond_2 then ⟨0, 0, 0⟩ else r

/-- `orifice_flow_coefficients` — superlink.py 2481–2546, with `gamma_o` of 1563–1570. -/
def baseOrificeLin (old : Lin) (g Q Ao Co Hu Hd u : ℝ) (o : Orifice) : Lin :=
  baseOrificeCoef old (safeDivide (2 * g * Co ^ 2 * Ao ^ 2) |Q|) Hu Hd u o

/-- `solve_orifice_flows` — superlink.py 2987–3057, one orifice. -/
def baseOrificeFlow (g Ao Co Hu Hd u Vu Vd dt : ℝ) (o : Orifice) : ℝ :=
  let l := baseOrificeCoef ⟨0, 0, 0⟩ (2 * g * Co ^ 2 * Ao ^ 2) Hu Hd u o
  let Q := sgn Hu Hd * Real.sqrt |l.alpha * Hu + l.beta * Hd + l.chi|
  let Qmax := (if Hu ≥ Hd then Vu else Vd) / dt
  npSign Q * min |Q| Qmax

/-- Effective head of a weir: the three masks in the order of the code, from the old value —
superlink.py 2576–2591, 3083–3098. -/
def baseWeirHead (old Hu Hd u : ℝ) (w : Weir) : ℝ :=
  let ω := omega Hu Hd
  let cond_0 : Prop := ω * Hu + (1 - ω) * Hd > w.z_w + w.z_inv + (1 - u) * w.y_max
  let cond_1 : Prop := (1 - ω) * Hu + ω * Hd > w.z_w + w.z_inv + (1 - u) * w.y_max
  have : Decidable cond_0 := Classical.dec _
  have : Decidable cond_1 := Classical.dec _
  let h := if cond_0 ∧ cond_1 then Hu - Hd else old
  let h := if cond_0 ∧ ¬ cond_1 then ω * Hu + (1 - ω) * Hd + (-w.z_inv - w.z_w - (1 - u) * w.y_max) else h
  let h := if ¬ cond_0 then 0 else h
  |h|

/-- `weir_flow_coefficients` — superlink.py 2548–2614, with `gamma_w` of 1572–1579. -/
def baseWeirLin (old : Lin) (oldH Q Hu Hd u : ℝ) (w : Weir) : Lin :=
  let ω := omega Hu Hd
  let cond_0 : Prop := ω * Hu + (1 - ω) * Hd > w.z_w + w.z_inv + (1 - u) * w.y_max
  let cond_1 : Prop := (1 - ω) * Hu + ω * Hd > w.z_w + w.z_inv + (1 - u) * w.y_max
  have : Decidable cond_0 := Classical.dec _
  have : Decidable cond_1 := Classical.dec _
  let H := baseWeirHead oldH Hu Hd u w
  let γ := safeDivide ((w.Cwr * w.L * H + w.Cwt * w.s * H ^ 2) ^ 2) |Q|
  let r : Lin := if cond_0 ∧ cond_1 then ⟨γ, -γ, 0⟩ else old
  let r : Lin := if cond_0 ∧ ¬ cond_1 then
    ⟨γ * ω * sgn Hu Hd, γ * (1 - ω) * sgn Hu Hd,
      γ * sgn Hu Hd * (-w.z_inv - w.z_w - (1 - u) * w.y_max)⟩ else r
  if ¬ cond_0 then ⟨0, 0, 0⟩ else r

/-- `solve_weir_flows` — superlink.py 3059–3104. -/
def baseWeirFlow (oldH Hu Hd u : ℝ) (w : Weir) : ℝ :=
  let H := baseWeirHead oldH Hu Hd u w
  let γ := (w.Cwr * w.L * H + w.Cwt * w.s * H ^ 2) ^ 2
  sgn Hu Hd * Real.sqrt (γ * H)

/-- Attributes concerning pumps. -/
inductive PumpAttr
  | J_up | J_dp | z_p | a_p | b_p | c_p | ap_h | ap_q | dHp_max | dHp_min | Qp | alpha_p | beta_p | chi_p
  deriving DecidableEq

/-- What the constructor sets — superlink.py 599–634. -/
def pumpAttrs (pumps : Bool) : List PumpAttr :=
  if pumps then [.J_up, .J_dp, .z_p, .a_p, .b_p, .c_p, .dHp_max, .dHp_min, .Qp, .alpha_p, .beta_p, .chi_p]
  else [.J_up, .J_dp, .z_p, .ap_h, .ap_q, .dHp_max, .dHp_min, .Qp, .alpha_p, .beta_p, .chi_p]

/-- What `pump_flow_coefficients` reads — superlink.py 2622–2634. -/
def pumpReads : List PumpAttr :=
  [.J_up, .J_dp, .z_p, .dHp_max, .dHp_min, .ap_h, .ap_q, .Qp, .alpha_p, .beta_p, .chi_p]

/-- What the compiled class reads there — nsuperlink.py 1106–1119. -/
def pumpReadsNumba : List PumpAttr :=
  [.J_up, .J_dp, .z_p, .dHp_max, .dHp_min, .a_p, .b_p, .c_p, .Qp, .alpha_p, .beta_p, .chi_p]

/-- Exceptions of the pump methods. -/
inductive PumpErr
  | attribute (a : PumpAttr)
  | assertion
  | value
  deriving DecidableEq

/-- Reading attributes in order: the first missing one raises. -/
def readAttrs (have_ : List PumpAttr) : List PumpAttr → Except PumpErr Unit
  | [] => .ok ()
  | a :: as => if a ∈ have_ then readAttrs have_ as else .error (.attribute a)

/-- Number of selected entries among the first `n`. -/
def count (n : ℕ) (m : ℕ → Prop) [DecidablePred m] : ℕ := ((List.range n).filter fun i => m i).length

/-- `x[mask] = v` with one value per entry of `x` (not per selected entry): numpy raises unless there is one value,
which is then used for all selected entries, or as many as selected entries, and then all are selected. -/
def maskAssign (n : ℕ) (m : ℕ → Prop) [DecidablePred m] (v x : ℕ → ℝ) : Except PumpErr (ℕ → ℝ) :=
  if n = 1 ∨ count n m = n then .ok fun i => if m i then v i else x i else .error .value

/-- Limits of the head differences — superlink.py 2642–2648 (the flows, 3128–3131, without the assertion). -/
def basePumpHeads (n : ℕ) (dHmin dHmax dH : ℕ → ℝ) : Except PumpErr (ℕ → ℝ) :=
  if (List.range n).all fun i => dHmin i ≤ dHmax i then
    match maskAssign n (fun i => dH i > dHmax i) dHmax dH with
    | .ok d => maskAssign n (fun i => d i < dHmin i) dHmin d
    | .error e => .error e
  else .error .assertion

/-- Static data of a pump of the pure-Python class. -/
structure EllipsePump where
  z_p : ℝ
  z_inv : ℝ
  dHmax : ℝ
  dHmin : ℝ
  a_h : ℝ
  a_q : ℝ

/-- Limited head difference of one pump. -/
def EllipsePump.head (p : EllipsePump) (Hu Hd : ℝ) : ℝ :=
  let d := Hd - Hu
  let d := if d > p.dHmax then p.dHmax else d
  if d < p.dHmin then p.dHmin else d

/-- `pump_flow_coefficients` of one pump — superlink.py 2639–2666, with `gamma_p` of 1581–1588. At a head
difference of zero numpy divides zero by zero; theorems exclude it. -/
def basePumpLin (old : Lin) (Q Hu Hd u : ℝ) (p : EllipsePump) : Lin :=
  let dH := p.head Hu Hd
  let cond_0 : Prop := Hu > p.z_inv + p.z_p
  let cond_1 : Prop := Hd - Hu > p.dHmin ∧ Hd - Hu < p.dHmax
  have : Decidable cond_0 := Classical.dec _
  have : Decidable cond_1 := Classical.dec _
  let γ := safeDivide (p.a_q ^ 2 * |dH|) (p.a_h ^ 2 * |Q|)
  let r : Lin := if cond_0 ∧ cond_1 then
    ⟨γ * u ^ 2, -γ * u ^ 2, γ * p.a_h ^ 2 / |dH| * u ^ 2⟩ else old
  let r : Lin := if cond_0 ∧ ¬ cond_1 then
    ⟨0, 0, Real.sqrt (max (p.a_q ^ 2 * (1 - dH ^ 2 / p.a_h ^ 2)) 0) * u⟩ else r
  if ¬ cond_0 then ⟨0, 0, 0⟩ else r

/-- `solve_pump_flows` of one pump — superlink.py 3125–3136. -/
def basePumpFlow (Hu Hd u : ℝ) (p : EllipsePump) : ℝ :=
  if Hu > p.z_inv + p.z_p then
    u * Real.sqrt (max (p.a_q ^ 2 * (1 - p.head Hu Hd ^ 2 / p.a_h ^ 2)) 0)
  else 0

end

end Pipedream.Control
