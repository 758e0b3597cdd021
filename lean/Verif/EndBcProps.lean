import Verif.EndBcModel
import Verif.LinkProps

/-!
# C62: the head relation of `bc_method='b'`

The reference is the momentum balance of the short end stretch, written in heads: the head of the
superjunction exceeds (upstream end) the head at the first junction by inertia, friction and entrance
loss. The friction force computed by `friction_slope` is `g·A·S_f·dx / Q`, so in units of head the
friction loss is `friction · Q / (g·A)`.
-/

namespace Pipedream.Superlink

open Pipedream.Link

/-- Reference loss between two ends of a stretch carrying `Q`: inertia, friction (`f` is the value of
`friction_slope`) and local loss, in units of head. -/
noncomputable def headLoss (d : EndData) (f dt g Q : ℝ) : ℝ :=
  d.dx / (g * d.A * dt) * (Q - d.Q_prev) + f * Q / (g * d.A) + d.C * |d.Q| * Q / (2 * g * d.A ^ 2)

/-- Invert of the first junction: the stretch of length `dx` falls from the superjunction end. -/
def firstInvert (d : EndData) : ℝ := d.z_inv - d.dx * d.S_o

/-- Invert of the last junction: it lies above the end at the superjunction. -/
def lastInvert (d : EndData) : ℝ := d.z_inv + d.dx * d.S_o

/-- The upstream relation as a function of the end flow: depth at the first junction. -/
def endDepth (c : ℝ × ℝ × ℝ) (H Q : ℝ) : ℝ := c.1 * Q + c.2.1 * H + c.2.2

/-- **C62 (upstream, exact discrepancy).** On a submerged upstream end with positive area, the head
relation of `bc_method='b'` differs from the momentum balance by `f·Q·(1 + 1/(g·A))` exactly: the
friction term has the wrong sign and is not in units of head. -/
theorem C62_upstream_discrepancy {d : EndData} {dt g f : ℝ} {c : ℝ × ℝ × ℝ}
    (hA : 0 < d.A) (hg : 0 < g) (hdt : 0 < dt) (hH : d.z_inv ≤ d.H)
    (hf : frictionSlope d.Q d.dx d.A d.R d.n d.method g = .ok f)
    (hc : upstreamHead "b" d dt g = .ok c) (Q : ℝ) :
    (firstInvert d + endDepth c d.H Q) - (d.H - headLoss d f dt g Q)
      = f * Q * (1 + 1 / (g * d.A)) := by
  have hth : theta d.H d.z_inv = 1 := if_pos hH
  simp only [upstreamHead, kappaUk, hf, bind, Except.bind, pure, Except.pure,
    if_neg (by decide : ¬ ("b" = "z")), if_true, Except.ok.injEq] at hc
  subst hc
  simp only [firstInvert, endDepth, headLoss, muUk, hth]
  field_simp
  ring

/-- **C62 (downstream, exact discrepancy).** At a submerged downstream end the sign is right but the
friction is not in units of head: the relation differs from the momentum balance by
`f·Q·(1 - 1/(g·A))`. -/
theorem C62_downstream_discrepancy {d : EndData} {dt g f : ℝ} {c : ℝ × ℝ × ℝ}
    (hA : 0 < d.A) (hg : 0 < g) (hdt : 0 < dt) (hH : d.z_inv ≤ d.H)
    (hf : frictionSlope d.Q d.dx d.A d.R d.n d.method g = .ok f)
    (hc : downstreamHead "b" d dt g = .ok c) (Q : ℝ) :
    (lastInvert d + endDepth c d.H Q) - (d.H + headLoss d f dt g Q)
      = f * Q * (1 - 1 / (g * d.A)) := by
  have hth : theta d.H d.z_inv = 1 := if_pos hH
  simp only [downstreamHead, kappaDk, hf, bind, Except.bind, pure, Except.pure,
    if_neg (by decide : ¬ ("b" = "z")), if_true, Except.ok.injEq] at hc
  subst hc
  simp only [lastInvert, endDepth, headLoss, muDk, hth]
  field_simp
  ring

/-- **C62 (partial: frictionless ends).** Both ends satisfy the momentum balance exactly when the
friction there vanishes (still water with Manning or Hazen–Williams friction, a stretch of length
zero). Missing: any positive friction, where the discrepancy theorems above show it fails. -/
theorem C62_balance_partial {d : EndData} {dt g : ℝ} {c c' : ℝ × ℝ × ℝ}
    (hA : 0 < d.A) (hg : 0 < g) (hdt : 0 < dt) (hH : d.z_inv ≤ d.H)
    (hf : frictionSlope d.Q d.dx d.A d.R d.n d.method g = .ok 0)
    (hc : upstreamHead "b" d dt g = .ok c) (hc' : downstreamHead "b" d dt g = .ok c') (Q : ℝ) :
    firstInvert d + endDepth c d.H Q = d.H - headLoss d 0 dt g Q ∧
    lastInvert d + endDepth c' d.H Q = d.H + headLoss d 0 dt g Q := by
  have h1 := C62_upstream_discrepancy hA hg hdt hH hf hc Q
  have h2 := C62_downstream_discrepancy hA hg hdt hH hf hc' Q
  constructor <;> linarith

/-- **C62 (the claim fails upstream whenever there is friction and flow).** For every wet submerged
upstream end with positive friction and flow into the pipe, the head the relation gives at the first
junction is strictly above the one the momentum balance gives. -/
theorem C62_upstream_fails {d : EndData} {dt g f : ℝ} {c : ℝ × ℝ × ℝ}
    (hA : 0 < d.A) (hg : 0 < g) (hdt : 0 < dt) (hH : d.z_inv ≤ d.H) (hf0 : 0 < f)
    (hf : frictionSlope d.Q d.dx d.A d.R d.n d.method g = .ok f)
    (hc : upstreamHead "b" d dt g = .ok c) {Q : ℝ} (hQ : 0 < Q) :
    d.H - headLoss d f dt g Q < firstInvert d + endDepth c d.H Q := by
  have h := C62_upstream_discrepancy hA hg hdt hH hf hc Q
  have : 0 < f * Q * (1 + 1 / (g * d.A)) := by positivity
  linarith

/-- **C62 (more friction, more head).** Two ends which differ only in roughness: the rougher one gets
the higher head at its first junction, for every flow into the pipe. A loss would lower it. -/
theorem C62_upstream_friction_raises_head {d : EndData} {n' dt g f f' : ℝ} {c c' : ℝ × ℝ × ℝ}
    (hf : frictionSlope d.Q d.dx d.A d.R d.n d.method g = .ok f)
    (hf' : frictionSlope d.Q d.dx d.A d.R n' d.method g = .ok f') (hlt : f < f')
    (hc : upstreamHead "b" d dt g = .ok c) (hc' : upstreamHead "b" { d with n := n' } dt g = .ok c')
    {Q : ℝ} (hQ : 0 < Q) :
    endDepth c d.H Q < endDepth c' d.H Q := by
  simp only [upstreamHead, kappaUk, hf, bind, Except.bind, pure, Except.pure,
    if_neg (by decide : ¬ ("b" = "z")), if_true, Except.ok.injEq] at hc
  simp only [upstreamHead, kappaUk, hf', bind, Except.bind, pure, Except.pure,
    if_neg (by decide : ¬ ("b" = "z")), if_true, Except.ok.injEq] at hc'
  subst hc hc'
  simp only [endDepth, muUk]
  nlinarith [mul_lt_mul_of_pos_right hlt hQ]

/-- **C62 (what does hold downstream).** The downstream coefficient of the flow is non-negative, so
the head at the last junction grows with the outflow and with the friction. -/
theorem C62_downstream_sign_partial {d : EndData} {dt g k : ℝ}
    (hg : 0 < g) (hdt : 0 < dt) (hdx : 0 ≤ d.dx) (hR : 0 < d.R) (hn : 0 < d.n)
    (hA : 0 < d.A) (hC : 0 ≤ d.C) (hk : kappaDk d dt g = .ok k) :
    0 ≤ k ∧ ∀ f, frictionSlope d.Q d.dx d.A d.R d.n d.method g = .ok f → f ≤ k := by
  unfold kappaDk at hk
  cases hf : frictionSlope d.Q d.dx d.A d.R d.n d.method g with
  | error e => rw [hf] at hk; simp [bind, Except.bind] at hk
  | ok t =>
    have ht := C17_friction_nonneg hdx hR hn hg hf
    rw [hf] at hk
    simp only [bind, Except.bind, pure, Except.pure, Except.ok.injEq] at hk
    have h0 : 0 ≤ d.dx / g / d.A / dt := by positivity
    have h2 : 0 ≤ d.C * |d.Q| / 2 / g / d.A ^ 2 := by positivity
    refine ⟨by linarith, ?_⟩
    intro f hff
    injection hff with hff
    linarith

/-- **C62 (unknown methods raise).** Any other `bc_method` raises `ValueError` at both ends. -/
theorem C62_unknown_method {bc : String} (hz : bc ≠ "z") (hb : bc ≠ "b") (d : EndData) (dt g : ℝ) :
    upstreamHead bc d dt g = .error .valueError ∧ downstreamHead bc d dt g = .error .valueError := by
  simp [upstreamHead, downstreamHead, hz, hb]

/-- **C62 (`bc_method='z'`).** The default relation is the momentum balance of an end stretch of length zero: at a
submerged end the head changes by the local loss alone, and at an end above the water there is no head at all, so the
depth is the loss term only. -/
theorem C62_zero_length {d : EndData} {dt g : ℝ} {c c' : ℝ × ℝ × ℝ} (hA : 0 < d.A) (hg : 0 < g)
    (hc : upstreamHead "z" d dt g = .ok c) (hc' : downstreamHead "z" d dt g = .ok c') (Q : ℝ) :
    (d.z_inv ≤ d.H →
      d.z_inv + endDepth c d.H Q = d.H - headLoss { d with dx := 0 } 0 dt g Q ∧
      d.z_inv + endDepth c' d.H Q = d.H + headLoss { d with dx := 0 } 0 dt g Q) ∧
    (d.H < d.z_inv →
      endDepth c d.H Q = -headLoss { d with dx := 0 } 0 dt g Q ∧
      endDepth c' d.H Q = headLoss { d with dx := 0 } 0 dt g Q) := by
  simp only [upstreamHead, downstreamHead, if_true, Except.ok.injEq] at hc hc'
  subst hc hc'
  constructor
  · intro hH
    have hth : theta d.H d.z_inv = 1 := if_pos hH
    simp only [endDepth, headLoss, gammaUk, gammaDk, safeDivide_eq, hth]
    constructor <;> field_simp <;> ring
  · intro hH
    have hth : theta d.H d.z_inv = 0 := if_neg (not_le.mpr hH)
    simp only [endDepth, headLoss, gammaUk, gammaDk, safeDivide_eq, hth]
    constructor <;> field_simp <;> ring

/-- A stretch of 10 m, area 1, radius 1, Manning `n = 0.1`, flow 2. -/
noncomputable def endWitness : EndData where
  Q := 2
  Q_prev := 2
  dx := 10
  A := 1
  C := 0
  R := 1
  n := 1 / 10
  method := 0
  z_inv := 0
  S_o := 0
  H := 5

/-- Friction of the witness, `g·n²·|Q|·dx/A = g/5`. -/
theorem endWitness_friction (g : ℝ) :
    frictionSlope endWitness.Q endWitness.dx endWitness.A endWitness.R endWitness.n
      endWitness.method g = .ok (g / 5) := by
  simp only [frictionSlope, endWitness]
  norm_num [pyDiv, bind, Except.bind]
  ring

/-- **C62 (witness of the failure).** With `g = 10`, `dt = 1`: steady flow 2 out of a superjunction at
head 5 into a level pipe. The relation puts the water at head 9, four units *above* the superjunction
it comes from; friction should lower it to 4.6. -/
theorem C62_witness : ∃ c, upstreamHead "b" endWitness 1 10 = .ok c ∧
    endDepth c endWitness.H endWitness.Q = 9 ∧
    endWitness.H - headLoss endWitness 2 1 10 endWitness.Q = 23 / 5 := by
  have hf := endWitness_friction 10
  refine ⟨_, by simp only [upstreamHead, kappaUk, hf, bind, Except.bind, pure, Except.pure,
    if_neg (by decide : ¬ ("b" = "z")), if_true]; rfl, ?_, ?_⟩
  · simp only [endDepth, muUk, endWitness, theta]
    norm_num
  · simp only [headLoss, endWitness]
    norm_num

/-- Non-vacuity of the frictionless case: the same end at rest. -/
example : ∃ c c', upstreamHead "b" { endWitness with Q := 0 } 1 10 = .ok c ∧
    downstreamHead "b" { endWitness with Q := 0 } 1 10 = .ok c' ∧
    frictionSlope 0 endWitness.dx endWitness.A endWitness.R endWitness.n endWitness.method 10
      = .ok 0 := by
  have hf : frictionSlope 0 endWitness.dx endWitness.A endWitness.R endWitness.n
      endWitness.method 10 = .ok 0 := by
    simp only [frictionSlope, endWitness]
    norm_num [pyDiv, bind, Except.bind]
  have h1 : ∃ c, upstreamHead "b" { endWitness with Q := 0 } 1 10 = .ok c := by
    simp only [upstreamHead, kappaUk, hf, bind, Except.bind, pure, Except.pure,
      if_neg (by decide : ¬ ("b" = "z")), if_true]
    exact ⟨_, rfl⟩
  have h2 : ∃ c, downstreamHead "b" { endWitness with Q := 0 } 1 10 = .ok c := by
    simp only [downstreamHead, kappaDk, hf, bind, Except.bind, pure, Except.pure,
      if_neg (by decide : ¬ ("b" = "z")), if_true]
    exact ⟨_, rfl⟩
  obtain ⟨c, hc⟩ := h1
  obtain ⟨c', hc'⟩ := h2
  exact ⟨c, c', hc, hc', hf⟩

end Pipedream.Superlink
