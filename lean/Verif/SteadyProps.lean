import Verif.PhysicsProps

/-!
# C100: steady flow

A pass of the solver reproduces exactly the steady states: the states in which friction, local losses and
advection balance gravity and pressure in every link, every pipe junction and every free superjunction
passes on what it receives, the end depths follow from the superjunction heads, and the controls discharge
what their laws say. The specification is in plain variables and does not mention the step size.
Uniform flow at normal depth (Manning) is the classical instance.
-/

namespace Pipedream.Step

open Pipedream.Sweep Pipedream.Link Pipedream.Superlink Pipedream.Control Pipedream.Network

variable {m : Model} {geo : Geo} {inp : Inputs} {wk : Work} {prev cur : Hyd} {co : Coef ℝ} {x : ℕ → ℝ}

noncomputable section

/-! ### Specification -/

/-- Two states agree on everything the network contains. -/
structure SameState (m : Model) (a b : Hyd) : Prop where
  H : ∀ i, i < m.M → b.H i = a.H i
  h : ∀ k, k < m.ix.NK → ∀ j, j ≤ m.ix.nk k → b.h (m.ix.I_1k k + j) = a.h (m.ix.I_1k k + j)
  Q : ∀ k, k < m.ix.NK → ∀ j, j < m.ix.nk k → b.Q (m.ix.i_1k k + j) = a.Q (m.ix.i_1k k + j)
  Qu : ∀ k, k < m.ix.NK → b.Qu k = a.Qu k
  Qd : ∀ k, k < m.ix.NK → b.Qd k = a.Qd k
  Qo : ∀ o, o < m.n_o → b.Qo o = a.Qo o
  Qw : ∀ w, w < m.n_w → b.Qw w = a.Qw w
  Qp : ∀ p, p < m.n_p → b.Qp p = a.Qp p

/-- Water arriving at superjunction `i` through elements `0 … n-1` with ends `Ju`, `Jd`, entering `Ju` side
with flow `Qu` and leaving at the `Jd` side with flow `Qd`. -/
def netInto (n : ℕ) (Ju Jd : ℕ → ℕ) (Qu Qd : ℕ → ℝ) (i : ℕ) : ℝ :=
  ∑ k ∈ Finset.range n, ((if Jd k = i then Qd k else 0) - (if Ju k = i then Qu k else 0))

/-- Steady flow under constant inputs (specification; no step size occurs outside the orifice volume
limit). -/
structure Steady (m : Model) (geo : Geo) (inp : Inputs) (s : Hyd) : Prop where
  fixed : ∀ i, i < m.M → m.bc i = true → ∀ f, inp.H_bc = some f → f i = s.H i
  balance : ∀ i, i < m.M → m.bc i = false →
    inp.Q_in i + netInto m.ix.NK m.Ju m.Jd s.Qu s.Qd i + netInto m.n_o m.Juo m.Jdo s.Qo s.Qo i
      + netInto m.n_w m.Juw m.Jdw s.Qw s.Qw i + netInto m.n_p m.Jup m.Jdp s.Qp s.Qp i = 0
  momentum : ∀ k, k < m.ix.NK → ∀ j, j < m.ix.nk k →
    frictionLaw m.g (m.method (m.ix.i_1k k + j)) (s.Q (m.ix.i_1k k + j)) (m.dx (m.ix.i_1k k + j))
        (geo.A (m.ix.i_1k k + j)) (geo.R (m.ix.i_1k k + j)) (m.n (m.ix.i_1k k + j)) * s.Q (m.ix.i_1k k + j)
      + (if m.ctrl (m.ix.i_1k k + j) then m.C (m.ix.i_1k k + j) * geo.A (m.ix.i_1k k + j)
          * |s.Q (m.ix.i_1k k + j)| / m.A_c (m.ix.i_1k k + j) ^ 2 * s.Q (m.ix.i_1k k + j) else 0)
      + geo.sigma (m.ix.i_1k k + j) * max (velocityUp m geo s k j) 0
          * (s.Q (m.ix.i_1k k + j) - arriving m s k j)
      + geo.sigma (m.ix.i_1k k + j) * max (-velocityDown m geo s k j) 0
          * (s.Q (m.ix.i_1k k + j) - leaving m s k (j + 1))
    = m.g * geo.A (m.ix.i_1k k + j) * (m.S_o (m.ix.i_1k k + j) * m.dx (m.ix.i_1k k + j)
        + s.h (m.ix.I_1k k + j) - s.h (m.ix.I_1k k + j + 1))
  continuity : ∀ k, k < m.ix.NK → ∀ j, j ≤ m.ix.nk k →
    arriving m s k j + inp.Q_0Ik (m.ix.I_1k k + j) = leaving m s k j
  up : ∀ k, k < m.ix.NK → s.h (m.ix.I_1k k)
    = (if m.z_uk k ≤ s.H (m.Ju k) then s.H (m.Ju k) - m.z_uk k else 0)
      - |s.Qu k| * m.C_uk k / (2 * m.g * geo.A_u k ^ 2) * s.Qu k
  down : ∀ k, k < m.ix.NK → s.h (m.ix.I_1k k + m.ix.nk k)
    = (if m.z_dk k ≤ s.H (m.Jd k) then s.H (m.Jd k) - m.z_dk k else 0)
      + |s.Qd k| * m.C_dk k / (2 * m.g * geo.A_d k ^ 2) * s.Qd k
  orifices : ∀ o, o < m.n_o → s.Qo o = orificeFlow m.g (geo.Ao o) (m.Co o) (s.H (m.Juo o)) (s.H (m.Jdo o))
    (inp.u_o o) (geo.V (m.Juo o)) (geo.V (m.Jdo o)) inp.dt (m.orifice o)
  weirs : ∀ w, w < m.n_w → s.Qw w = weirFlow (s.H (m.Juw w)) (s.H (m.Jdw w)) (inp.u_w w) (m.weir w)
  pumps : ∀ p, p < m.n_p → s.Qp p = pumpFlow (s.H (m.Jup p)) (s.H (m.Jdp p)) (inp.u_p p) (m.pump p)

/-- The state lies within the bounds the solver enforces. -/
structure Inside (m : Model) (s : Hyd) : Prop where
  heads : ∀ i, i < m.M → m.z_inv i < s.H i ∧ s.H i < m.z_inv i + m.max_depth i
  depths : ∀ k, k < m.ix.NK → ∀ j, j ≤ m.ix.nk k → m.min_depth < s.h (m.ix.I_1k k + j)
  inner : ∀ k, k < m.ix.NK → ∀ j, 1 ≤ j → j < m.ix.nk k → s.h (m.ix.I_1k k + j) < m.max_depth_k k
  room : ∀ k, k < m.ix.NK → m.min_depth ≤ m.max_depth_k k

/-- Sections, openings and pump curves are proper; no orifice is throttled by the volume limit. -/
structure ProperControls (m : Model) (geo : Geo) (inp : Inputs) (s : Hyd) : Prop where
  Au : ∀ k, k < m.ix.NK → 0 < geo.A_u k
  Ad : ∀ k, k < m.ix.NK → 0 < geo.A_d k
  opening : ∀ o, o < m.n_o → 0 ≤ (m.orifice o).opening (inp.u_o o)
  limit : ∀ o, o < m.n_o → |orificeRaw m.g (geo.Ao o) (m.Co o) (s.H (m.Juo o)) (s.H (m.Jdo o)) (inp.u_o o)
      (m.orifice o)|
    ≤ (if s.H (m.Juo o) > s.H (m.Jdo o) then geo.V (m.Juo o) else geo.V (m.Jdo o)) / inp.dt
  pump : ∀ p, p < m.n_p → (m.pump p).Valid

/-! ### Lemmas -/

theorem SameState.refl (m : Model) (s : Hyd) : SameState m s s :=
  ⟨fun _ _ => rfl, fun _ _ _ _ => rfl, fun _ _ _ _ => rfl, fun _ _ => rfl, fun _ _ => rfl, fun _ _ => rfl,
    fun _ _ => rfl, fun _ _ => rfl⟩

theorem SameState.arriving {a b : Hyd} (h : SameState m a b) {k j : ℕ} (hk : k < m.ix.NK) (hj : j ≤ m.ix.nk k) :
    arriving m b k j = arriving m a k j := by
  unfold Step.arriving
  split_ifs with h0
  · exact h.Qu k hk
  · have := h.Q k hk (j - 1) (by omega)
    rwa [show m.ix.i_1k k + (j - 1) = m.ix.i_1k k + j - 1 by omega] at this

theorem SameState.leaving {a b : Hyd} (h : SameState m a b) {k j : ℕ} (hk : k < m.ix.NK) (hj : j ≤ m.ix.nk k) :
    leaving m b k j = leaving m a k j := by
  unfold Step.leaving
  split_ifs with h0
  · exact h.Qd k hk
  · exact h.Q k hk j (by omega)

/-- The assembled equations of a superlink are the momentum and continuity equations in plain variables,
for any candidate new state. -/
theorem saintVenant_iff (c : m.Consistent) (st : StartTables m) (ps : PhysicalStep m geo inp)
    (hc : StepCoefs m.g m.N (m.linkIn geo inp prev cur) (m.nodeIn geo inp prev) m.nix co) (next : Hyd)
    {k : ℕ} (hk : k < m.ix.NK) :
    SaintVenant m.g (co.slice (m.ix.i_1k k) (m.ix.I_1k k)) (m.ix.nk k)
      (fun j => next.Q (m.ix.i_1k k + j)) (fun j => next.h (m.ix.I_1k k + j)) (next.Qu k) (next.Qd k) ↔
    (∀ j, j < m.ix.nk k → MomentumEq m geo inp prev cur next k j) ∧
    (∀ j, j ≤ m.ix.nk k → ContinuityEq m geo inp prev next k j) := by
  have hN := c.inN k hk
  have qi : ∀ j, qIn (fun j => next.Q (m.ix.i_1k k + j)) (next.Qu k) j = arriving m next k j := by
    intro j
    unfold qIn arriving
    split_ifs with h
    · rfl
    · rw [Nat.add_sub_assoc (by omega)]
  have qo : ∀ j, qOut (m.ix.nk k) (fun j => next.Q (m.ix.i_1k k + j)) (next.Qd k) j = leaving m next k j :=
    fun j => rfl
  have dt0 := ps.dt_pos.ne'
  have mom : ∀ j, j < m.ix.nk k →
      ((co.slice (m.ix.i_1k k) (m.ix.I_1k k)).a j * arriving m next k j
        + (co.slice (m.ix.i_1k k) (m.ix.I_1k k)).b j * next.Q (m.ix.i_1k k + j)
        + (co.slice (m.ix.i_1k k) (m.ix.I_1k k)).c j * leaving m next k (j + 1)
        = (co.slice (m.ix.i_1k k) (m.ix.I_1k k)).P j + m.g * (co.slice (m.ix.i_1k k) (m.ix.I_1k k)).A j
          * (next.h (m.ix.I_1k k + j) - next.h (m.ix.I_1k k + (j + 1)))
      ↔ MomentumEq m geo inp prev cur next k j) := by
    intro j hj
    obtain ⟨ha, hb, hcc, hP, hA⟩ := hc.1 (m.ix.i_1k k + j) (by omega)
    simp only [Coef.slice]
    simp only [LinkIn.b, bIk] at hb
    cases hf : frictionSlope ((m.linkIn geo inp prev cur).Qnext (m.ix.i_1k k + j))
        ((m.linkIn geo inp prev cur).dx (m.ix.i_1k k + j)) ((m.linkIn geo inp prev cur).A (m.ix.i_1k k + j))
        ((m.linkIn geo inp prev cur).R (m.ix.i_1k k + j)) ((m.linkIn geo inp prev cur).n (m.ix.i_1k k + j))
        ((m.linkIn geo inp prev cur).method (m.ix.i_1k k + j)) m.g with
    | error e => rw [hf] at hb; simp [bind, Except.bind] at hb
    | ok t =>
      have ht := frictionLaw_eq (ps.A_pos _ (by omega)) (ps.R_pos _ (by omega)) (ps.n_pos _ (by omega)) hf
      rw [hf] at hb
      simp only [bind, Except.bind, pure, Except.pure] at hb
      injection hb with hb
      rw [← hb, ha, hcc, hP, hA, ht]
      simp only [LinkIn.a, LinkIn.c, LinkIn.P, Model.linkIn, aIk, cIk, PIk]
      rw [velocityUp_eq c ps st hk hj, velocityDown_eq c ps st hk hj]
      simp only [MomentumEq]
      rw [show m.ix.I_1k k + j + 1 = m.ix.I_1k k + (j + 1) by omega]
      by_cases hct : m.ctrl (m.ix.i_1k k + j) = true
      · simp only [hct, if_true]
        constructor <;> intro M <;> linear_combination M
      · simp only [hct, Bool.false_eq_true, if_false]
        constructor <;> intro M <;> linear_combination M
  have con : ∀ j, j ≤ m.ix.nk k →
      (arriving m next k j - leaving m next k j
        = (co.slice (m.ix.i_1k k) (m.ix.I_1k k)).E j * next.h (m.ix.I_1k k + j)
          - (co.slice (m.ix.i_1k k) (m.ix.I_1k k)).D j
      ↔ ContinuityEq m geo inp prev next k j) := by
    intro j hj
    obtain ⟨eE, eD⟩ := node_coeffs_eq (y := m.nodeIn geo inp prev) (c.layout.pos k hk) (c.nodes k hk) hj
    simp only [Coef.slice]
    rw [hc.2.1, hc.2.2, eE, eD, surfaceArea_eq]
    simp only [ContinuityEq, Model.nodeIn]
    constructor <;> intro M <;> linear_combination -M
  constructor
  · intro S
    refine ⟨fun j hj => (mom j hj).1 ?_, fun j hj => (con j hj).1 ?_⟩
    · have := S.momentum j hj; rw [qi, qo] at this; linear_combination this
    · have := S.continuity j hj; rw [qi, qo] at this; linear_combination -this
  · rintro ⟨hm, hcn⟩
    refine ⟨fun j hj => ?_, fun j hj => ?_⟩
    · have := (mom j hj).2 (hm j hj); rw [qi, qo]; linear_combination this
    · have := (con j hj).2 (hcn j hj); rw [qi, qo]; linear_combination -this

/-- Ends of a superlink in steady flow: with the given heads the end relations return the steady values. -/
theorem steady_ends (c : m.Consistent) (ps : PhysicalStep m geo inp) (he : m.end_method = .b)
    (pc : ProperControls m geo inp cur) (sd : Steady m geo inp cur)
    (hc : StepCoefs m.g m.N (m.linkIn geo inp prev cur) (m.nodeIn geo inp prev) m.nix co)
    {k : ℕ} (hk : k < m.ix.NK)
    (S : SaintVenant m.g (co.slice (m.ix.i_1k k) (m.ix.I_1k k)) (m.ix.nk k)
      (fun j => cur.Q (m.ix.i_1k k + j)) (fun j => cur.h (m.ix.I_1k k + j)) (cur.Qu k) (cur.Qd k)) :
    Quk (m.endRec wk co k) (m.headCoef geo cur k) (cur.H (m.Ju k)) (cur.H (m.Jd k)) = cur.Qu k ∧
    Qdk (m.endRec wk co k) (m.headCoef geo cur k) (cur.H (m.Ju k)) (cur.H (m.Jd k)) = cur.Qd k ∧
    huk (m.endRec wk co k) (m.headCoef geo cur k) (cur.H (m.Ju k)) (cur.H (m.Jd k)) = cur.h (m.ix.I_1k k) ∧
    hdk (m.endRec wk co k) (m.headCoef geo cur k) (cur.H (m.Ju k)) (cur.H (m.Jd k))
      = cur.h (m.ix.I_1k k + m.ix.nk k) := by
  have n1 := c.layout.pos k hk
  have ph := physical c ps hc hk
  have F := sweptFwd_rel m.g co m.ix wk.f c.layout hk
  have B := sweptBwd_rel m.g co m.ix wk.b c.layout hk
  have fs := fwd_sound F (physical_fwdPivots ph F) S (m.ix.nk k - 1) (by omega)
  have bs := bwd_sound B (physical_bwdPivots ph B) S 0 n1
  have c0 := S.continuity 0 (by omega)
  have cn := S.continuity (m.ix.nk k) le_rfl
  rw [qIn_zero, qOut_lt _ _ n1] at c0
  rw [qOut_end] at cn
  have en : m.ix.nk k - 1 + 1 = m.ix.nk k := by omega
  have qn : qIn (fun j => cur.Q (m.ix.i_1k k + j)) (cur.Qu k) (m.ix.nk k)
      = cur.Q (m.ix.i_1k k + (m.ix.nk k - 1)) := by
    rw [qIn, if_neg (by omega)]
  rw [qn] at cn
  simp only [en, add_zero] at fs bs c0 cn
  have D0 : DkStar (m.endRec wk co k) (m.headCoef geo cur k) ≠ 0 :=
    ne_of_gt (lt_of_lt_of_le zero_lt_one (DkStar_ge_one (step_endSigns c ps hc hk) (step_headSigns ps hk)))
  have g0 := ps.g_pos
  have au := pc.Au k hk
  have ad := pc.Ad k hk
  have e1 : (2 * geo.A_u k ^ 2 * m.g) ≠ 0 := by positivity
  have e2 : (2 * geo.A_d k ^ 2 * m.g) ≠ 0 := by positivity
  have R : EndRelations (m.endRec wk co k) (m.headCoef geo cur k) (cur.H (m.Ju k)) (cur.H (m.Jd k))
      (cur.Qu k) (cur.Qd k) (cur.h (m.ix.I_1k k)) (cur.h (m.ix.I_1k k + m.ix.nk k)) := by
    refine ⟨?_, ?_, ?_, ?_⟩
    · unfold Model.endRec Superlink.endRec
      rw [he]
      simp only [add_zero, Model.bwd]; linear_combination bs - c0
    · unfold Model.endRec Superlink.endRec
      rw [he]
      simp only [Model.fwd]; linear_combination fs + cn
    · rw [sd.up k hk]
      simp only [Model.headCoef, headCoefZ, gammaUk, safeDivide_of_ne _ e1, theta, ge_iff_le]
      split_ifs <;> ring
    · rw [sd.down k hk]
      simp only [Model.headCoef, headCoefZ, gammaDk, safeDivide_of_ne _ e2, theta, ge_iff_le]
      split_ifs <;> ring
  obtain ⟨a1, a2, a3, a4⟩ := C04_end_relations_unique _ _ _ _ _ _ _ _ D0 R
  exact ⟨a1.symm, a2.symm, a3.symm, a4.symm⟩

/-- The linearised controls move their steady discharge at the steady heads. -/
theorem steady_controls (ps : PhysicalStep m geo inp) (pc : ProperControls m geo inp cur)
    (ho : ∀ o, o < m.n_o → cur.Qo o = orificeFlow m.g (geo.Ao o) (m.Co o) (cur.H (m.Juo o)) (cur.H (m.Jdo o))
      (inp.u_o o) (geo.V (m.Juo o)) (geo.V (m.Jdo o)) inp.dt (m.orifice o))
    (hw : ∀ w, w < m.n_w → cur.Qw w = weirFlow (cur.H (m.Juw w)) (cur.H (m.Jdw w)) (inp.u_w w) (m.weir w))
    (hp : ∀ p, p < m.n_p → cur.Qp p = pumpFlow (cur.H (m.Jup p)) (cur.H (m.Jdp p)) (inp.u_p p) (m.pump p)) :
    (∀ o, o < m.n_o → (m.net geo inp wk cur co).orifices.Q cur.H o = cur.Qo o) ∧
    (∀ w, w < m.n_w → (m.net geo inp wk cur co).weirs.Q cur.H w = cur.Qw w) ∧
    (∀ p, p < m.n_p → (m.net geo inp wk cur co).pumps.Q cur.H p = cur.Qp p) := by
  refine ⟨fun o h => ?_, fun w h => ?_, fun p h => ?_⟩
  · show (orificeLin (wk.lo o) m.g (cur.Qo o) _ _ _ _ _ _).eval (cur.H (m.Juo o)) (cur.H (m.Jdo o)) = cur.Qo o
    rw [ho o h]
    exact C27_converged_partial _ _ _ _ _ _ _ _ _ _ _ ps.g_pos.le (pc.opening o h) (pc.limit o h)
  · show (weirLin (wk.lw w) (cur.Qw w) _ _ _ _).eval (cur.H (m.Juw w)) (cur.H (m.Jdw w)) = cur.Qw w
    rw [hw w h]
    exact C24_weir _ _ _ _ _
  · show (pumpLin (wk.lp p) (cur.Qp p) _ _ _ _).eval (cur.H (m.Jup p)) (cur.H (m.Jdp p)) = cur.Qp p
    rw [hp p h]
    exact C24_pump _ _ _ _ (pc.pump p h) (ps.u_p p h)

theorem ctrls_inflow_eq (C : Ctrls ℝ) (H Q : ℕ → ℝ) (h : ∀ k, k < C.n → C.Q H k = Q k) (i : ℕ) :
    C.inflow H i = netInto C.n C.Ju C.Jd Q Q i := by
  unfold Ctrls.inflow netInto
  apply Finset.sum_congr rfl
  intro k hk
  rw [h k (Finset.mem_range.mp hk)]

/-- Steady balances are balances of the assembled equations at unchanged heads. -/
theorem steady_balanced_iff (ps : PhysicalStep m geo inp) (pc : ProperControls m geo inp cur)
    (ho : ∀ o, o < m.n_o → cur.Qo o = orificeFlow m.g (geo.Ao o) (m.Co o) (cur.H (m.Juo o)) (cur.H (m.Jdo o))
      (inp.u_o o) (geo.V (m.Juo o)) (geo.V (m.Jdo o)) inp.dt (m.orifice o))
    (hw : ∀ w, w < m.n_w → cur.Qw w = weirFlow (cur.H (m.Juw w)) (cur.H (m.Jdw w)) (inp.u_w w) (m.weir w))
    (hp : ∀ p, p < m.n_p → cur.Qp p = pumpFlow (cur.H (m.Jup p)) (cur.H (m.Jdp p)) (inp.u_p p) (m.pump p))
    (ends : ∀ k, k < m.ix.NK →
      Quk (m.endRec wk co k) (m.headCoef geo cur k) (cur.H (m.Ju k)) (cur.H (m.Jd k)) = cur.Qu k ∧
      Qdk (m.endRec wk co k) (m.headCoef geo cur k) (cur.H (m.Ju k)) (cur.H (m.Jd k)) = cur.Qd k)
    {Hprev : ℕ → ℝ} {i : ℕ} (hi : Hprev i = cur.H i) :
    Network.Balanced (m.net geo inp wk cur co) inp.dt Hprev inp.Q_in cur.H i ↔
    inp.Q_in i + netInto m.ix.NK m.Ju m.Jd cur.Qu cur.Qd i + netInto m.n_o m.Juo m.Jdo cur.Qo cur.Qo i
      + netInto m.n_w m.Juw m.Jdw cur.Qw cur.Qw i + netInto m.n_p m.Jup m.Jdp cur.Qp cur.Qp i = 0 := by
  obtain ⟨co', cw', cp'⟩ := steady_controls (wk := wk) (co := co) ps pc ho hw hp
  have l : (m.net geo inp wk cur co).links.inflow cur.H i = netInto m.ix.NK m.Ju m.Jd cur.Qu cur.Qd i := by
    unfold Links.inflow netInto
    apply Finset.sum_congr rfl
    intro k hk
    obtain ⟨e1, e2⟩ := ends k (Finset.mem_range.mp hk)
    have h1 : (m.net geo inp wk cur co).links.Qu cur.H k = cur.Qu k := e1
    have h2 : (m.net geo inp wk cur co).links.Qd cur.H k = cur.Qd k := e2
    rw [h1, h2]; rfl
  unfold Network.Balanced
  rw [l, ctrls_inflow_eq _ _ _ co', ctrls_inflow_eq _ _ _ cw', ctrls_inflow_eq _ _ _ cp', hi, sub_self, mul_zero]
  constructor <;> intro h
  · exact h.symm
  · exact h.symm

/-! ### C100 -/

/-- **C100 (steady flow is reproduced).** For every network, from a steady state — saved and current state
agreeing on it — a pass returns the same heads, depths and flows, for any geometry, scratch contents and
step size. -/
theorem C100_steady_reproduced (c : m.Consistent) (st : StartTables m) (ps : PhysicalStep m geo inp)
    (cw : CleanWork m wk.mats) (he : m.end_method = .b) (pc : ProperControls m geo inp cur)
    (ins : Inside m cur) (ag : SameState m cur prev) (sd : Steady m geo inp cur)
    (p : Pass m geo inp wk prev cur co x) :
    SameState m cur (m.advance geo inp wk cur co x) := by
  have sv : ∀ k, k < m.ix.NK → SaintVenant m.g (co.slice (m.ix.i_1k k) (m.ix.I_1k k)) (m.ix.nk k)
      (fun j => cur.Q (m.ix.i_1k k + j)) (fun j => cur.h (m.ix.I_1k k + j)) (cur.Qu k) (cur.Qd k) := by
    intro k hk
    refine (saintVenant_iff c st ps p.coefs cur hk).2 ⟨fun j hj => ?_, fun j hj => ?_⟩
    · have := sd.momentum k hk j hj
      simp only [MomentumEq]
      rw [ag.Q k hk j hj, sub_self, zero_div, mul_zero, zero_add]
      exact this
    · have := sd.continuity k hk j hj
      simp only [ContinuityEq]
      rw [ag.h k hk j hj, sub_self, zero_div, mul_zero]
      linear_combination -this
  have ends := fun {k : ℕ} (hk : k < m.ix.NK) => steady_ends (wk := wk) c ps he pc sd p.coefs hk (sv k hk)
  have sol : Solves m.M (m.lhs geo inp wk cur co) (m.rhs geo inp wk prev cur co) cur.H := by
    refine (solves_iff (m.net geo inp wk cur co) inp.dt wk.mats cw.mats (wired c) prev.H inp.Q_in
      (inp.H_bc.getD cur.H) _).mpr fun i hi => ⟨fun hb => ?_, fun hb => ?_⟩
    · cases hbc : inp.H_bc with
      | none => simp
      | some f => simp [sd.fixed i hi hb f hbc]
    · exact (steady_balanced_iff ps pc sd.orifices sd.weirs sd.pumps
        (fun k hk => ⟨(ends hk).1, (ends hk).2.1⟩) (ag.H i hi)).2 (sd.balance i hi hb)
  have hx : ∀ i, i < m.M → x i = cur.H i := (C06_step c ps cw p.coefs _).2 x cur.H p.solve sol
  have hH : ∀ i, i < m.M → (m.advance geo inp wk cur co x).H i = cur.H i := by
    intro i hi
    obtain ⟨a, b⟩ := ins.heads i hi
    simp only [Model.advance, clipHead, hx i hi, max_eq_left a.le, min_eq_left b.le]
  have pipes : ∀ k, k < m.ix.NK →
      (∀ j, j ≤ m.ix.nk k → (m.advance geo inp wk cur co x).h (m.ix.I_1k k + j) = cur.h (m.ix.I_1k k + j)) ∧
      (∀ j, j < m.ix.nk k → (m.advance geo inp wk cur co x).Q (m.ix.i_1k k + j) = cur.Q (m.ix.i_1k k + j)) := by
    intro k hk
    obtain ⟨-, -, e3, e4⟩ := ends hk
    have hu : endDepthU m geo wk cur co (m.advance geo inp wk cur co x).H k = cur.h (m.ix.I_1k k) := by
      rw [endDepthU, hH _ (c.Ju k hk), hH _ (c.Jd k hk), e3]
    have hd : endDepthD m geo wk cur co (m.advance geo inp wk cur co x).H k
        = cur.h (m.ix.I_1k k + m.ix.nk k) := by
      rw [endDepthD, hH _ (c.Ju k hk), hH _ (c.Jd k hk), e4]
    have d0 := ins.depths k hk 0 (by omega)
    rw [add_zero] at d0
    exact (C01_physical m.g co m.ix m.min_depth m.max_depth_k
      (endDepthU m geo wk cur co (m.advance geo inp wk cur co x).H)
      (endDepthD m geo wk cur co (m.advance geo inp wk cur co x).H) m.back wk.f wk.b ⟨cur.h, cur.Q⟩ c.layout hk
      (by rw [hu]; exact d0.le) (by rw [hd]; exact (ins.depths k hk _ le_rfl).le) (ins.room k hk)
      (physical c ps p.coefs hk)).2.2 (fun j => cur.Q (m.ix.i_1k k + j)) (fun j => cur.h (m.ix.I_1k k + j))
      (cur.Qu k) (cur.Qd k) (sv k hk) (by rw [hu, add_zero]) (by rw [hd])
      (fun j h1 h2 => ⟨(ins.depths k hk j h2.le).le, (ins.inner k hk j h1 h2).le⟩)
  refine ⟨hH, fun k hk => (pipes k hk).1, fun k hk => (pipes k hk).2, fun k hk => ?_, fun k hk => ?_,
    fun o ho => ?_, fun w hw => ?_, fun q hq => ?_⟩
  · show Quk _ _ ((m.advance geo inp wk cur co x).H (m.Ju k)) ((m.advance geo inp wk cur co x).H (m.Jd k)) = _
    rw [hH _ (c.Ju k hk), hH _ (c.Jd k hk)]; exact (ends hk).1
  · show Qdk _ _ ((m.advance geo inp wk cur co x).H (m.Ju k)) ((m.advance geo inp wk cur co x).H (m.Jd k)) = _
    rw [hH _ (c.Ju k hk), hH _ (c.Jd k hk)]; exact (ends hk).2.1
  · show orificeFlow _ _ _ ((m.advance geo inp wk cur co x).H (m.Juo o))
      ((m.advance geo inp wk cur co x).H (m.Jdo o)) _ _ _ _ _ = _
    rw [hH _ (c.Juo o ho), hH _ (c.Jdo o ho)]
    exact (sd.orifices o ho).symm
  · show weirFlow ((m.advance geo inp wk cur co x).H (m.Juw w))
      ((m.advance geo inp wk cur co x).H (m.Jdw w)) _ _ = _
    rw [hH _ (c.Juw w hw), hH _ (c.Jdw w hw)]
    exact (sd.weirs w hw).symm
  · show pumpFlow ((m.advance geo inp wk cur co x).H (m.Jup q))
      ((m.advance geo inp wk cur co x).H (m.Jdp q)) _ _ = _
    rw [hH _ (c.Jup q hq), hH _ (c.Jdp q hq)]
    exact (sd.pumps q hq).symm

/-- A pass that ends strictly inside all bounds was not clipped. -/
theorem unclipped_of_inside (c : m.Consistent) (ins : Inside m (m.advance geo inp wk cur co x)) :
    Unclipped m x (m.advance geo inp wk cur co x)
      (endDepthU m geo wk cur co (m.advance geo inp wk cur co x).H)
      (endDepthD m geo wk cur co (m.advance geo inp wk cur co x).H) := by
  refine ⟨fun j hj => ?_, fun k hk => ?_, fun k hk j h1 h2 => ⟨ins.depths k hk j h2.le, ins.inner k hk j h1 h2⟩⟩
  · obtain ⟨a, b⟩ := ins.heads j hj
    simp only [Model.advance, clipHead] at a b
    constructor
    · by_contra h
      rw [max_eq_right (not_le.mp h).le] at a
      exact absurd a (not_lt.mpr (min_le_left _ _))
    · by_contra h
      rw [min_eq_right (le_trans (not_le.mp h).le (le_max_left _ _))] at b
      exact lt_irrefl _ b
  · set hu := endDepthU m geo wk cur co (m.advance geo inp wk cur co x).H with hhu
    set hd := endDepthD m geo wk cur co (m.advance geo inp wk cur co x).H with hhd
    have R := numbaSolveInternals_spec (sweptFwd m.g co m.ix wk.f) (sweptBwd m.g co m.ix wk.b) m.min_depth
      m.max_depth_k hu hd m.ix.i_1k m.ix.I_1k m.ix.nk m.ix.NK m.back ⟨cur.h, cur.Q⟩ c.layout k hk
    have r0 := R.h0
    have rn := R.hn
    have d0 := ins.depths k hk 0 (by omega)
    have dn := ins.depths k hk _ le_rfl
    have key : ∀ I, (m.advance geo inp wk cur co x).h I
        = if (numbaSolveInternals (sweptFwd m.g co m.ix wk.f) (sweptBwd m.g co m.ix wk.b) m.min_depth
            m.max_depth_k hu hd m.ix.i_1k m.ix.I_1k m.ix.nk m.ix.NK m.back ⟨cur.h, cur.Q⟩).h I < m.min_depth
          then m.min_depth else (numbaSolveInternals (sweptFwd m.g co m.ix wk.f) (sweptBwd m.g co m.ix wk.b)
            m.min_depth m.max_depth_k hu hd m.ix.i_1k m.ix.I_1k m.ix.nk m.ix.NK m.back ⟨cur.h, cur.Q⟩).h I :=
      fun I => rfl
    rw [key, r0] at d0
    rw [key, rn] at dn
    refine ⟨?_, ?_, ins.room k hk⟩
    · by_contra h; rw [if_pos (not_le.mp h)] at d0; exact lt_irrefl _ d0
    · by_contra h; rw [if_pos (not_le.mp h)] at dn; exact lt_irrefl _ dn

theorem Inside.congr {a b : Hyd} (h : SameState m a b) (ins : Inside m a) : Inside m b :=
  ⟨fun i hi => by rw [h.H i hi]; exact ins.heads i hi,
   fun k hk j hj => by rw [h.h k hk j hj]; exact ins.depths k hk j hj,
   fun k hk j h1 h2 => by rw [h.h k hk j h2.le]; exact ins.inner k hk j h1 h2, ins.room⟩

/-- **C100 (only steady flow is reproduced).** If a pass from a state inside the bounds returns that state,
the state is steady. -/
theorem C100_reproduced_steady (c : m.Consistent) (st : StartTables m) (ps : PhysicalStep m geo inp)
    (cw : CleanWork m wk.mats) (he : m.end_method = .b) (pc : ProperControls m geo inp cur)
    (ins : Inside m cur) (ag : SameState m cur prev) (p : Pass m geo inp wk prev cur co x)
    (rep : SameState m cur (m.advance geo inp wk cur co x)) : Steady m geo inp cur := by
  have uc := unclipped_of_inside c (ins.congr rep)
  set next := m.advance geo inp wk cur co x with hnext
  have ho : ∀ o, o < m.n_o → cur.Qo o = orificeFlow m.g (geo.Ao o) (m.Co o) (cur.H (m.Juo o)) (cur.H (m.Jdo o))
      (inp.u_o o) (geo.V (m.Juo o)) (geo.V (m.Jdo o)) inp.dt (m.orifice o) := by
    intro o h
    rw [← rep.Qo o h, ← rep.H _ (c.Juo o h), ← rep.H _ (c.Jdo o h)]; rfl
  have hw : ∀ w, w < m.n_w → cur.Qw w = weirFlow (cur.H (m.Juw w)) (cur.H (m.Jdw w)) (inp.u_w w) (m.weir w) := by
    intro o h
    rw [← rep.Qw o h, ← rep.H _ (c.Juw o h), ← rep.H _ (c.Jdw o h)]; rfl
  have hp : ∀ p, p < m.n_p → cur.Qp p = pumpFlow (cur.H (m.Jup p)) (cur.H (m.Jdp p)) (inp.u_p p) (m.pump p) := by
    intro o h
    rw [← rep.Qp o h, ← rep.H _ (c.Jup o h), ← rep.H _ (c.Jdp o h)]; rfl
  have ends : ∀ k, k < m.ix.NK →
      Quk (m.endRec wk co k) (m.headCoef geo cur k) (cur.H (m.Ju k)) (cur.H (m.Jd k)) = cur.Qu k ∧
      Qdk (m.endRec wk co k) (m.headCoef geo cur k) (cur.H (m.Ju k)) (cur.H (m.Jd k)) = cur.Qd k := by
    intro k hk
    rw [← rep.Qu k hk, ← rep.Qd k hk, ← rep.H _ (c.Ju k hk), ← rep.H _ (c.Jd k hk)]
    exact ⟨rfl, rfl⟩
  have ed := fun {k : ℕ} (hk : k < m.ix.NK) =>
    C04_end_depths (wk := wk) (cur := cur) (co := co) (x := x) ps (pc.Au k hk) (pc.Ad k hk)
  have er := fun {k : ℕ} (hk : k < m.ix.NK) => C04_reported_end_depths c uc hk
  have eqs := fun {k : ℕ} (hk : k < m.ix.NK) => C01_momentum_and_continuity c st ps p he uc hk
  rw [← hnext] at ed er eqs
  refine ⟨fun i hi hb f hf => ?_, fun i hi hb => ?_, fun k hk j hj => ?_, fun k hk j hj => ?_, fun k hk => ?_,
    fun k hk => ?_, ho, hw, hp⟩
  · have h := C08_step c cw p i hi hb
    rw [← hnext, rep.H i hi, hf] at h
    obtain ⟨a, b⟩ := ins.heads i hi
    simp only [Option.getD_some] at h
    rw [h]
    rw [h] at a b
    rcases le_total (f i) (m.z_inv i) with h1 | h1
    · rw [max_eq_right h1] at a; exact absurd a (not_lt.mpr (min_le_left _ _))
    · rw [max_eq_left h1] at a b ⊢
      rcases le_total (f i) (m.z_inv i + m.max_depth i) with h2 | h2
      · exact (min_eq_left h2).symm
      · rw [min_eq_right h2] at b; exact absurd b (lt_irrefl _)
  · have h := ((solves_iff (m.net geo inp wk cur co) inp.dt wk.mats cw.mats (wired c) prev.H inp.Q_in
      (inp.H_bc.getD cur.H) x).mp p.solve i hi).2 hb
    have e : ∀ j, j < m.M → x j = cur.H j := by
      intro j hj
      rw [← rep.H j hj, hnext]
      simp only [Model.advance, clipHead]
      obtain ⟨a, b⟩ := uc.heads j hj
      rw [max_eq_left a, min_eq_left b]
    have h' : Network.Balanced (m.net geo inp wk cur co) inp.dt prev.H inp.Q_in cur.H i := by
      refine ((solves_iff (m.net geo inp wk cur co) inp.dt wk.mats cw.mats (wired c) prev.H inp.Q_in
        (inp.H_bc.getD cur.H) cur.H).mp ?_ i hi).2 hb
      intro j hj
      refine Eq.trans ?_ (p.solve j hj)
      apply Finset.sum_congr rfl
      intro l hl
      rw [← e l (Finset.mem_range.mp hl)]
      rfl
    exact (steady_balanced_iff ps pc ho hw hp ends (ag.H i hi)).1 h'
  · have := (eqs hk).1 j hj
    simp only [MomentumEq] at this
    have h1 := rep.h k hk (j + 1) hj
    rw [show m.ix.I_1k k + (j + 1) = m.ix.I_1k k + j + 1 by omega] at h1
    rw [rep.Q k hk j hj, ag.Q k hk j hj, sub_self, zero_div, mul_zero, zero_add, rep.arriving hk hj.le,
      rep.leaving hk hj, rep.h k hk j hj.le, h1] at this
    exact this
  · have := (eqs hk).2 j hj
    simp only [ContinuityEq] at this
    rw [rep.h k hk j hj, ag.h k hk j hj, sub_self, zero_div, mul_zero, rep.arriving hk hj, rep.leaving hk hj] at this
    linarith
  · have h0 := rep.h k hk 0 (by omega)
    rw [add_zero] at h0
    rw [← h0, (er hk).1, (ed hk).1, rep.H _ (c.Ju k hk), rep.Qu k hk]
  · rw [← rep.h k hk _ le_rfl, (er hk).2, (ed hk).2, rep.H _ (c.Jd k hk), rep.Qd k hk]

/-- **C100.** A pass reproduces a state inside the bounds if and only if the state is steady. -/
theorem C100_reproduced_iff (c : m.Consistent) (st : StartTables m) (ps : PhysicalStep m geo inp)
    (cw : CleanWork m wk.mats) (he : m.end_method = .b) (pc : ProperControls m geo inp cur)
    (ins : Inside m cur) (ag : SameState m cur prev) (p : Pass m geo inp wk prev cur co x) :
    SameState m cur (m.advance geo inp wk cur co x) ↔ Steady m geo inp cur :=
  ⟨C100_reproduced_steady c st ps cw he pc ins ag p,
   fun sd => C100_steady_reproduced c st ps cw he pc ins ag sd p⟩

/-- Steadiness only concerns what the network contains. -/
theorem Steady.congr {a b : Hyd} (c : m.Consistent) (h : SameState m a b) (sd : Steady m geo inp a) :
    Steady m geo inp b := by
  have netc : ∀ {n : ℕ} {Ju Jd : ℕ → ℕ} {Qu Qd Qu' Qd' : ℕ → ℝ} {i : ℕ}, (∀ k, k < n → Qu' k = Qu k) →
      (∀ k, k < n → Qd' k = Qd k) → netInto n Ju Jd Qu' Qd' i = netInto n Ju Jd Qu Qd i := by
    intro n Ju Jd Qu Qd Qu' Qd' i h1 h2
    apply Finset.sum_congr rfl
    intro k hk
    rw [h1 k (Finset.mem_range.mp hk), h2 k (Finset.mem_range.mp hk)]
  refine ⟨fun i hi hb f hf => ?_, fun i hi hb => ?_, fun k hk j hj => ?_, fun k hk j hj => ?_, fun k hk => ?_,
    fun k hk => ?_, fun o ho => ?_, fun o ho => ?_, fun o ho => ?_⟩
  · rw [h.H i hi]; exact sd.fixed i hi hb f hf
  · rw [netc h.Qu h.Qd, netc h.Qo h.Qo, netc h.Qw h.Qw, netc h.Qp h.Qp]; exact sd.balance i hi hb
  · have vu : velocityUp m geo b k j = velocityUp m geo a k j := by
      simp only [velocityUp]
      split_ifs with h0
      · rw [h.Q k hk j hj]
      · have := h.Q k hk (j - 1) (by omega)
        rw [show m.ix.i_1k k + (j - 1) = m.ix.i_1k k + j - 1 by omega] at this
        rw [h.Q k hk j hj, this]
    have vd : velocityDown m geo b k j = velocityDown m geo a k j := by
      simp only [velocityDown]
      split_ifs with h0
      · rw [h.Q k hk j hj]
      · have := h.Q k hk (j + 1) (by omega)
        rw [show m.ix.i_1k k + (j + 1) = m.ix.i_1k k + j + 1 by omega] at this
        rw [h.Q k hk j hj, this]
    have h1 := h.h k hk (j + 1) hj
    rw [show m.ix.I_1k k + (j + 1) = m.ix.I_1k k + j + 1 by omega] at h1
    rw [vu, vd, h.Q k hk j hj, h.arriving hk hj.le, h.leaving hk hj, h.h k hk j hj.le, h1]
    exact sd.momentum k hk j hj
  · rw [h.arriving hk hj, h.leaving hk hj]; exact sd.continuity k hk j hj
  · have h0 := h.h k hk 0 (by omega)
    rw [add_zero] at h0
    rw [h0, h.H _ (c.Ju k hk), h.Qu k hk]; exact sd.up k hk
  · rw [h.h k hk _ le_rfl, h.H _ (c.Jd k hk), h.Qd k hk]; exact sd.down k hk
  · rw [h.Qo o ho, h.H _ (c.Juo o ho), h.H _ (c.Jdo o ho)]; exact sd.orifices o ho
  · rw [h.Qw o ho, h.H _ (c.Juw o ho), h.H _ (c.Jdw o ho)]; exact sd.weirs o ho
  · rw [h.Qp o ho, h.H _ (c.Jup o ho), h.H _ (c.Jdp o ho)]; exact sd.pumps o ho

theorem ProperControls.congr {a b : Hyd} (c : m.Consistent) (h : SameState m a b)
    (pc : ProperControls m geo inp a) : ProperControls m geo inp b :=
  ⟨pc.Au, pc.Ad, pc.opening, fun o ho => by
    rw [h.H _ (c.Juo o ho), h.H _ (c.Jdo o ho)]; exact pc.limit o ho, pc.pump⟩

theorem SameState.symm {a b : Hyd} (h : SameState m a b) : SameState m b a :=
  ⟨fun i hi => (h.H i hi).symm, fun k hk j hj => (h.h k hk j hj).symm, fun k hk j hj => (h.Q k hk j hj).symm,
    fun k hk => (h.Qu k hk).symm, fun k hk => (h.Qd k hk).symm, fun k hk => (h.Qo k hk).symm,
    fun k hk => (h.Qw k hk).symm, fun k hk => (h.Qp k hk).symm⟩

theorem SameState.trans {a b d : Hyd} (h : SameState m a b) (h' : SameState m b d) : SameState m a d :=
  ⟨fun i hi => (h'.H i hi).trans (h.H i hi), fun k hk j hj => (h'.h k hk j hj).trans (h.h k hk j hj),
    fun k hk j hj => (h'.Q k hk j hj).trans (h.Q k hk j hj), fun k hk => (h'.Qu k hk).trans (h.Qu k hk),
    fun k hk => (h'.Qd k hk).trans (h.Qd k hk), fun k hk => (h'.Qo k hk).trans (h.Qo k hk),
    fun k hk => (h'.Qw k hk).trans (h.Qw k hk), fun k hk => (h'.Qp k hk).trans (h.Qp k hk)⟩

/-- **C100 (for ever).** A state that is steady under every geometry and input in use is kept by any number
of calls, with any step sizes and iteration counts. -/
theorem C100_steady_for_ever (c : m.Consistent) (st : StartTables m) (he : m.end_method = .b) {s0 : Hyd}
    (ins : Inside m s0) (good : Geo → Inputs → Prop)
    (hg : ∀ geo inp, good geo inp → PhysicalStep m geo inp ∧ ProperControls m geo inp s0 ∧ Steady m geo inp s0)
    {s s' : State}
    (h : Relation.ReflTransGen (fun a b => ∃ (first_iter : Bool) (geo : Geo) (inp : Inputs) (co : Coef ℝ) (x : ℕ → ℝ), good geo inp ∧
      Pass m geo inp a.wk (if first_iter then a.cur else a.saved) a.cur co x ∧
      b = (⟨if first_iter then a.cur else a.saved, m.advance geo inp a.wk a.cur co x,
        m.work geo inp a.wk a.cur co⟩ : State)) s s')
    (cw : CleanWork m s.wk.mats) (sp : SameState m s0 s.saved) (sc : SameState m s0 s.cur) :
    SameState m s0 s'.cur := by
  suffices H : CleanWork m s'.wk.mats ∧ SameState m s0 s'.saved ∧ SameState m s0 s'.cur from H.2.2
  induction h with
  | refl => exact ⟨cw, sp, sc⟩
  | @tail a b _ hab ih =>
    obtain ⟨fi, geo, inp, co, x, hgood, p, rfl⟩ := hab
    obtain ⟨cw, sp, sc⟩ := ih
    obtain ⟨ps, pc, sd⟩ := hg geo inp hgood
    have sp' : SameState m s0 (if fi then a.cur else a.saved) := by
      cases fi
      · exact sp
      · exact sc
    exact ⟨cw.next, sp', sc.trans (C100_steady_reproduced c st ps cw he (pc.congr c sc) (ins.congr sc)
      (sc.symm.trans sp') (sd.congr c sc) p)⟩

/-! ### Uniform flow -/

/-- **C100 (Manning).** Resistance balances gravity in a Manning link with flow `q ≥ 0` on slope `S ≥ 0`
exactly when `q` is the normal discharge `A R^(2/3) √S / n`. -/
theorem C100_manning {g dx A R n S q : ℝ} (hg : 0 < g) (hdx : 0 < dx) (hA : 0 < A) (hR : 0 < R) (hn : 0 < n)
    (hS : 0 ≤ S) (hq : 0 ≤ q) :
    frictionLaw g 0 q dx A R n * q = g * A * (S * dx) ↔ q = A * R ^ (2 / 3 : ℝ) * Real.sqrt S / n := by
  have hr : 0 < R ^ (2 / 3 : ℝ) := Real.rpow_pos_of_pos hR _
  have hr2 : R ^ (4 / 3 : ℝ) = (R ^ (2 / 3 : ℝ)) ^ 2 := by
    rw [← Real.rpow_natCast, ← Real.rpow_mul hR.le]; norm_num
  rw [frictionLaw, if_pos rfl, hr2, abs_of_nonneg hq]
  set r := R ^ (2 / 3 : ℝ)
  have hs := Real.sq_sqrt hS
  have key : g * n ^ 2 * q * dx / (A * r ^ 2) * q = g * A * (S * dx) ↔ (q * n) ^ 2 = (A * r * Real.sqrt S) ^ 2 := by
    rw [mul_pow (A * r), hs]
    constructor
    · intro h
      have h2 : g * dx * ((q * n) ^ 2 - (A * r) ^ 2 * S) = 0 := by
        field_simp at h
        linear_combination (g * dx) * h
      rcases mul_eq_zero.mp h2 with h3 | h3
      · exact absurd h3 (by positivity)
      · linarith
    · intro h
      field_simp
      linear_combination h
  rw [key, eq_div_iff hn.ne']
  constructor
  · intro h
    exact (sq_eq_sq₀ (by positivity) (by positivity)).mp h
  · intro h; rw [h]

/-- **C100 (normal depth).** In a Manning superlink without local losses that carries the same flow
`q ≥ 0` everywhere at the same depth, the momentum equations of the steady state say exactly that `q` is the
normal discharge of every link; neither the link lengths nor the inertia factor matter. -/
theorem C100_normal_depth (c : m.Consistent) (ps : PhysicalStep m geo inp) {s : Hyd} {k : ℕ} {q y : ℝ}
    (hk : k < m.ix.NK) (hq : 0 ≤ q)
    (hu : s.Qu k = q) (hd : s.Qd k = q) (hQ : ∀ j, j < m.ix.nk k → s.Q (m.ix.i_1k k + j) = q)
    (hy : ∀ j, j ≤ m.ix.nk k → s.h (m.ix.I_1k k + j) = y)
    (hm : ∀ j, j < m.ix.nk k → m.method (m.ix.i_1k k + j) = 0 ∧ m.ctrl (m.ix.i_1k k + j) = false
      ∧ 0 ≤ m.S_o (m.ix.i_1k k + j)) :
    (∀ j, j < m.ix.nk k →
      frictionLaw m.g (m.method (m.ix.i_1k k + j)) (s.Q (m.ix.i_1k k + j)) (m.dx (m.ix.i_1k k + j))
        (geo.A (m.ix.i_1k k + j)) (geo.R (m.ix.i_1k k + j)) (m.n (m.ix.i_1k k + j)) * s.Q (m.ix.i_1k k + j)
      + (if m.ctrl (m.ix.i_1k k + j) then m.C (m.ix.i_1k k + j) * geo.A (m.ix.i_1k k + j)
          * |s.Q (m.ix.i_1k k + j)| / m.A_c (m.ix.i_1k k + j) ^ 2 * s.Q (m.ix.i_1k k + j) else 0)
      + geo.sigma (m.ix.i_1k k + j) * max (velocityUp m geo s k j) 0
          * (s.Q (m.ix.i_1k k + j) - arriving m s k j)
      + geo.sigma (m.ix.i_1k k + j) * max (-velocityDown m geo s k j) 0
          * (s.Q (m.ix.i_1k k + j) - leaving m s k (j + 1))
      = m.g * geo.A (m.ix.i_1k k + j) * (m.S_o (m.ix.i_1k k + j) * m.dx (m.ix.i_1k k + j)
        + s.h (m.ix.I_1k k + j) - s.h (m.ix.I_1k k + j + 1))) ↔
    (∀ j, j < m.ix.nk k → q = geo.A (m.ix.i_1k k + j) * geo.R (m.ix.i_1k k + j) ^ (2 / 3 : ℝ)
      * Real.sqrt (m.S_o (m.ix.i_1k k + j)) / m.n (m.ix.i_1k k + j)) := by
  have hN := c.inN k hk
  apply forall_congr'; intro j
  apply forall_congr'; intro hj
  obtain ⟨h1, h2, h3⟩ := hm j hj
  have ar : arriving m s k j = q := by
    unfold arriving
    split_ifs with h0
    · exact hu
    · have := hQ (j - 1) (by omega)
      rwa [show m.ix.i_1k k + (j - 1) = m.ix.i_1k k + j - 1 by omega] at this
  have le : leaving m s k (j + 1) = q := by
    unfold leaving
    split_ifs with h0
    · exact hd
    · exact hQ (j + 1) (by omega)
  have hy1 := hy (j + 1) hj
  rw [show m.ix.I_1k k + (j + 1) = m.ix.I_1k k + j + 1 by omega] at hy1
  have lt : m.ix.i_1k k + j < m.N := by omega
  rw [ar, le, hQ j hj, hy j hj.le, hy1, h1, h2,
    ← C100_manning ps.g_pos (ps.dx_pos _ lt) (ps.A_pos _ lt) (ps.R_pos _ lt) (ps.n_pos _ lt) h3 hq]
  simp only [Bool.false_eq_true, if_false, sub_self, mul_zero, add_zero, add_sub_cancel_right]

/-! ### Non-vacuity: one unit of flow down a lossy-ended pipe at normal depth -/

/-- Two links on slope 1/100 with roughness 1/10, lossy ends, no controls. -/
noncomputable def exSteadyModel : Model :=
  { exModel false with
    S_o := fun _ => 1 / 100, n := fun _ => 1 / 10, z_dk := fun _ => 9 / 5, C_uk := fun _ => 1.962
    C_dk := fun _ => 1.962, n_o := 0, n_w := 0, n_p := 0 }

noncomputable def exSteadyGeo : Geo := { exGeo with R := fun _ => 1 }

/-- One unit in at the top, one unit out at the bottom. -/
noncomputable def exSteadyInp : Inputs := { exInp with Q_in := fun i => if i = 0 then 1 else -1 }

noncomputable def exSteady : Hyd where
  H := fun i => if i = 0 then 3.1 else 2.7
  h := fun _ => 1
  Q := fun _ => 1
  Qu := fun _ => 1
  Qd := fun _ => 1
  Qo := fun _ => 0
  Qw := fun _ => 0
  Qp := fun _ => 0

theorem exSteadyConsistent : exSteadyModel.Consistent := by
  have h := exConsistent false
  exact ⟨h.layout, h.inN, h.nodes, h.Ju, h.Jd, by simp [exSteadyModel], by simp [exSteadyModel],
    by simp [exSteadyModel], by simp [exSteadyModel], by simp [exSteadyModel], by simp [exSteadyModel]⟩

theorem exSteadyPhysical : PhysicalStep exSteadyModel exSteadyGeo exSteadyInp := by
  constructor <;> intros <;> norm_num [exSteadyModel, exSteadyGeo, exSteadyInp, exModel, exGeo, exInp]

theorem exSteadyOk : Steady exSteadyModel exSteadyGeo exSteadyInp exSteady := by
  have ar : ∀ k j, arriving exSteadyModel exSteady k j = 1 := by
    intro k j; unfold arriving; split_ifs <;> rfl
  have le : ∀ k j, leaving exSteadyModel exSteady k j = 1 := by
    intro k j; unfold leaving; split_ifs <;> rfl
  refine ⟨fun i _ _ f hf => ?_, fun i hi _ => ?_, fun k hk => ?_, fun k hk j hj => ?_, fun k hk => ?_,
    fun k hk => ?_, ?_, ?_, ?_⟩
  · simp [exSteadyInp, exInp] at hf
  · obtain rfl | rfl : i = 0 ∨ i = 1 := by simp [exSteadyModel, exModel] at hi; omega
    · norm_num [netInto, exSteadyModel, exModel, exSteady, exSteadyInp]
    · norm_num [netInto, exSteadyModel, exModel, exSteady, exSteadyInp]
  · refine (C100_normal_depth exSteadyConsistent exSteadyPhysical (q := 1) (y := 1) hk (by norm_num) rfl rfl
      (fun _ _ => rfl) (fun _ _ => rfl) (fun j _ => ⟨rfl, rfl, ?_⟩)).2 (fun j _ => ?_)
    · norm_num [exSteadyModel]
    · have : Real.sqrt (1 / 100 : ℝ) = 1 / 10 := by
        rw [show (1 / 100 : ℝ) = (1 / 10) ^ 2 by norm_num]; exact Real.sqrt_sq (by norm_num)
      simp only [exSteadyModel, exSteadyGeo, exGeo, this]
      norm_num
  · rw [ar, le]; simp [exSteadyInp, exInp]
  · norm_num [exSteadyModel, exModel, exSteady, exSteadyGeo, exGeo]
  · norm_num [exSteadyModel, exModel, exSteady, exSteadyGeo, exGeo]
  · intro o ho; simp [exSteadyModel] at ho
  · intro o ho; simp [exSteadyModel] at ho
  · intro o ho; simp [exSteadyModel] at ho

theorem exSteadyInside : Inside exSteadyModel exSteady := by
  refine ⟨fun i hi => ?_, fun k hk j hj => ?_, fun k hk j h1 h2 => ?_, fun k hk => ?_⟩
  · obtain rfl | rfl : i = 0 ∨ i = 1 := by simp [exSteadyModel, exModel] at hi; omega
    · norm_num [exSteadyModel, exModel, exSteady]
    · norm_num [exSteadyModel, exModel, exSteady]
  all_goals norm_num [exSteadyModel, exModel, exSteady]

theorem exSteadyProper : ProperControls exSteadyModel exSteadyGeo exSteadyInp exSteady := by
  refine ⟨?_, ?_, ?_, ?_, ?_⟩ <;> intro k hk
  · norm_num [exSteadyGeo, exGeo]
  · norm_num [exSteadyGeo, exGeo]
  all_goals simp [exSteadyModel] at hk

/-- A pass exists from this flowing state and reproduces it. -/
example : ∃ co x, Pass exSteadyModel exSteadyGeo exSteadyInp exWork exSteady exSteady co x ∧
    SameState exSteadyModel exSteady (exSteadyModel.advance exSteadyGeo exSteadyInp exWork exSteady co x) := by
  have cw : CleanWork exSteadyModel exWork.mats :=
    ⟨⟨fun _ _ _ _ => rfl⟩, ⟨fun _ _ _ _ => rfl, fun _ _ => rfl⟩, ⟨fun _ _ _ _ => rfl, fun _ _ => rfl⟩,
      ⟨fun _ _ _ _ => rfl, fun _ _ => rfl⟩⟩
  obtain ⟨co, x, p⟩ := C06_step_exists (prev := exSteady) (cur := exSteady) exSteadyConsistent exSteadyPhysical cw
    (fun _ _ => Or.inl rfl)
  have st := exStartTables false
  exact ⟨co, x, p, C100_steady_reproduced exSteadyConsistent ⟨st.first, st.last⟩ exSteadyPhysical cw rfl
    exSteadyProper exSteadyInside (SameState.refl _ _) exSteadyOk p⟩

end

end Pipedream.Step
