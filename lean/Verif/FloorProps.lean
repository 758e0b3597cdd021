import Verif.InitialProps

/-!
# C149: the limits on depths and heads neither create nor destroy water

After the equations of a step are solved, heads are limited to `[z_inv, z_inv + max_depth]` and depths in the
pipes are raised to `min_depth` (interior ones also limited to `max_depth`). The flows are not corrected for
it. Here the water created or lost is accounted for exactly, and a network is given which fills itself from
nothing, the faster the smaller its steps.
-/

namespace Pipedream.Step

open Pipedream.Sweep Pipedream.Link Pipedream.Superlink Pipedream.Control Pipedream.Network
open Pipedream.Geometry Pipedream.Interp

variable {m : Model} {geo : Geo} {inp : Inputs} {wk : Work} {prev cur : Hyd} {co : Coef ℝ} {x : ℕ → ℝ}

noncomputable section

/-! ### Specification -/

/-- Water gained in a step: surface areas times rises, at superjunctions and in pipes. -/
def gained (m : Model) (geo : Geo) (prev cur next : Hyd) : ℝ :=
  (∑ i ∈ Finset.range m.M, surfaceAt m geo cur i * (next.H i - prev.H i))
  + ∑ k ∈ Finset.range m.ix.NK, ∑ j ∈ Finset.range (m.ix.nk k + 1),
      surfaceArea m geo k j * (next.h (m.ix.I_1k k + j) - prev.h (m.ix.I_1k k + j))

/-- Water supplied to superjunctions and pipes during the step. -/
def supplied (m : Model) (inp : Inputs) : ℝ :=
  inp.dt * ((∑ i ∈ Finset.range m.M, inp.Q_in i)
    + ∑ k ∈ Finset.range m.ix.NK, ∑ j ∈ Finset.range (m.ix.nk k + 1), inp.Q_0Ik (m.ix.I_1k k + j))

/-- `s` satisfies the momentum and continuity equations of superlink `k` exactly, with the end depths that
follow from the heads `H`: the state of the pipe before its depths are limited. -/
structure Exact (m : Model) (geo : Geo) (inp : Inputs) (wk : Work) (prev cur : Hyd) (co : Coef ℝ) (H : ℕ → ℝ) (k : ℕ)
    (s : Hyd) : Prop where
  first : s.h (m.ix.I_1k k) = endDepthU m geo wk cur co H k
  last : s.h (m.ix.I_1k k + m.ix.nk k) = endDepthD m geo wk cur co H k
  momentum : ∀ j, j < m.ix.nk k → MomentumEq m geo inp prev cur s k j
  continuity : ∀ j, j ≤ m.ix.nk k → ContinuityEq m geo inp prev s k j

/-- Weight of a head in the volume balance of the network: its free surface, and what the flows carry away
in the step per unit of head. -/
def headWeight (m : Model) (geo : Geo) (inp : Inputs) (wk : Work) (cur : Hyd) (co : Coef ℝ) (j : ℕ) : ℝ :=
  inp.dt * ∑ i ∈ Finset.range m.M, m.lhs geo inp wk cur co i j

/-! ### The pipes before limiting -/

/-- For any heads the equations of a superlink have a solution with the end flows and depths of these heads. -/
theorem pipe_solution (c : m.Consistent) (ps : PhysicalStep m geo inp) (he : m.end_method = .b)
    (hc : StepCoefs m.g m.N (m.linkIn geo inp prev cur) (m.nodeIn geo inp prev) m.nix co) {k : ℕ} (hk : k < m.ix.NK)
    (Hu Hd : ℝ) :
    ∃ Q h, SaintVenant m.g (co.slice (m.ix.i_1k k) (m.ix.I_1k k)) (m.ix.nk k) Q h
        (Quk (m.endRec wk co k) (m.headCoef geo cur k) Hu Hd) (Qdk (m.endRec wk co k) (m.headCoef geo cur k) Hu Hd) ∧
      h 0 = huk (m.endRec wk co k) (m.headCoef geo cur k) Hu Hd ∧
      h (m.ix.nk k) = hdk (m.endRec wk co k) (m.headCoef geo cur k) Hu Hd := by
  have n1 := c.layout.pos k hk
  have ph := physical c ps hc hk
  have F := sweptFwd_rel m.g co m.ix wk.f c.layout hk
  have B := sweptBwd_rel m.g co m.ix wk.b c.layout hk
  have D0 : DkStar (m.endRec wk co k) (m.headCoef geo cur k) ≠ 0 :=
    ne_of_gt (lt_of_lt_of_le zero_lt_one (DkStar_ge_one (step_endSigns c ps hc hk) (step_headSigns ps hk)))
  obtain ⟨bk, fk, -, -⟩ := C04_end_relations (m.endRec wk co k) (m.headCoef geo cur k) Hu Hd D0
  obtain ⟨Q, h, Qu, Qd, S, h0, hn⟩ := exists_solution n1 F (physical_fwdPivots ph F)
    (huk (m.endRec wk co k) (m.headCoef geo cur k) Hu Hd) (hdk (m.endRec wk co k) (m.headCoef geo cur k) Hu Hd)
  have fs := fwd_sound F (physical_fwdPivots ph F) S (m.ix.nk k - 1) (by omega)
  have bs := bwd_sound B (physical_bwdPivots ph B) S 0 n1
  have c0 := S.continuity 0 (by omega)
  have cn := S.continuity (m.ix.nk k) le_rfl
  rw [qIn_zero, qOut_lt _ _ n1] at c0
  rw [qOut_end] at cn
  have en : m.ix.nk k - 1 + 1 = m.ix.nk k := by omega
  have qn : qIn Q Qu (m.ix.nk k) = Q (m.ix.nk k - 1) := by rw [qIn, if_neg (by omega)]
  rw [qn, hn] at cn
  rw [h0] at c0
  rw [en, h0, hn] at fs
  rw [h0, hn] at bs
  have eQu : Qu = Quk (m.endRec wk co k) (m.headCoef geo cur k) Hu Hd := by
    rw [bk]
    generalize huk (m.endRec wk co k) (m.headCoef geo cur k) Hu Hd = a at *
    generalize hdk (m.endRec wk co k) (m.headCoef geo cur k) Hu Hd = b at *
    unfold Model.endRec Superlink.endRec
    rw [he]
    simp only [add_zero, Model.bwd] at bs ⊢
    linear_combination bs - c0
  have eQd : Qd = Qdk (m.endRec wk co k) (m.headCoef geo cur k) Hu Hd := by
    rw [fk]
    generalize huk (m.endRec wk co k) (m.headCoef geo cur k) Hu Hd = a at *
    generalize hdk (m.endRec wk co k) (m.headCoef geo cur k) Hu Hd = b at *
    unfold Model.endRec Superlink.endRec
    rw [he]
    simp only [Model.fwd] at fs ⊢
    linear_combination fs + cn
  exact ⟨Q, h, eQu ▸ eQd ▸ S, h0, hn⟩

/-- Every superlink has an exact state for any heads. -/
theorem exact_exists (c : m.Consistent) (st : StartTables m) (ps : PhysicalStep m geo inp) (he : m.end_method = .b)
    (hc : StepCoefs m.g m.N (m.linkIn geo inp prev cur) (m.nodeIn geo inp prev) m.nix co) {k : ℕ} (hk : k < m.ix.NK)
    (H : ℕ → ℝ) : ∃ s, Exact m geo inp wk prev cur co H k s := by
  obtain ⟨Q, h, S, h0, hn⟩ := pipe_solution (wk := wk) c ps he hc hk (H (m.Ju k)) (H (m.Jd k))
  have h2 := (saintVenant_iff c st ps hc { cur with
    Q := fun i => Q (i - m.ix.i_1k k), h := fun I => h (I - m.ix.I_1k k)
    Qu := fun _ => Quk (m.endRec wk co k) (m.headCoef geo cur k) (H (m.Ju k)) (H (m.Jd k))
    Qd := fun _ => Qdk (m.endRec wk co k) (m.headCoef geo cur k) (H (m.Ju k)) (H (m.Jd k)) } hk).1
    (by simpa only [Nat.add_sub_cancel_left] using S)
  refine ⟨_, ?_, ?_, h2.1, h2.2⟩
  · show h (m.ix.I_1k k - m.ix.I_1k k) = _
    rw [Nat.sub_self]; exact h0
  · show h (m.ix.I_1k k + m.ix.nk k - m.ix.I_1k k) = _
    rw [Nat.add_sub_cancel_left]; exact hn

/-- The exact state has the end flows of the step, and is unique. -/
theorem Exact.unique (c : m.Consistent) (st : StartTables m) (ps : PhysicalStep m geo inp)
    (hc : StepCoefs m.g m.N (m.linkIn geo inp prev cur) (m.nodeIn geo inp prev) m.nix co) {k : ℕ} (hk : k < m.ix.NK)
    {H : ℕ → ℝ} {s : Hyd} (e : Exact m geo inp wk prev cur co H k s) {Q h : ℕ → ℝ} {Qu Qd : ℝ}
    (S : SaintVenant m.g (co.slice (m.ix.i_1k k) (m.ix.I_1k k)) (m.ix.nk k) Q h Qu Qd)
    (h0 : h 0 = endDepthU m geo wk cur co H k) (hn : h (m.ix.nk k) = endDepthD m geo wk cur co H k) :
    (∀ j, j < m.ix.nk k → s.Q (m.ix.i_1k k + j) = Q j) ∧ (∀ j, j ≤ m.ix.nk k → s.h (m.ix.I_1k k + j) = h j) ∧
      s.Qu k = Qu ∧ s.Qd k = Qd := by
  have S' := (saintVenant_iff c st ps hc s hk).2 ⟨e.momentum, e.continuity⟩
  have F := sweptFwd_rel m.g co m.ix wk.f c.layout hk
  refine solution_unique (c.layout.pos k hk) F (physical_fwdPivots (physical c ps hc hk) F) S' S ?_ ?_
  · rw [h0]; simpa using e.first
  · rw [hn]; exact e.last

theorem Exact.flows (c : m.Consistent) (st : StartTables m) (ps : PhysicalStep m geo inp) (he : m.end_method = .b)
    (hc : StepCoefs m.g m.N (m.linkIn geo inp prev cur) (m.nodeIn geo inp prev) m.nix co) {k : ℕ} (hk : k < m.ix.NK)
    {H : ℕ → ℝ} {s : Hyd} (e : Exact m geo inp wk prev cur co H k s) :
    s.Qu k = Quk (m.endRec wk co k) (m.headCoef geo cur k) (H (m.Ju k)) (H (m.Jd k)) ∧
      s.Qd k = Qdk (m.endRec wk co k) (m.headCoef geo cur k) (H (m.Ju k)) (H (m.Jd k)) := by
  obtain ⟨Q, h, S, h0, hn⟩ := pipe_solution (wk := wk) c ps he hc hk (H (m.Ju k)) (H (m.Jd k))
  exact (e.unique c st ps hc hk S h0 hn).2.2

/-- What the step reports of a pipe: the end depths of the exact state raised to `min_depth`; everything else
exactly, if no interior depth reached a limit. -/
theorem Exact.reported (c : m.Consistent) (st : StartTables m) (ps : PhysicalStep m geo inp)
    (hc : StepCoefs m.g m.N (m.linkIn geo inp prev cur) (m.nodeIn geo inp prev) m.nix co) {k : ℕ} (hk : k < m.ix.NK)
    {s : Hyd} (e : Exact m geo inp wk prev cur co (m.advance geo inp wk cur co x).H k s) :
    (m.advance geo inp wk cur co x).h (m.ix.I_1k k) = max m.min_depth (s.h (m.ix.I_1k k)) ∧
    (m.advance geo inp wk cur co x).h (m.ix.I_1k k + m.ix.nk k) = max m.min_depth (s.h (m.ix.I_1k k + m.ix.nk k)) ∧
    ((∀ j, 1 ≤ j → j < m.ix.nk k → m.min_depth < (m.advance geo inp wk cur co x).h (m.ix.I_1k k + j) ∧
        (m.advance geo inp wk cur co x).h (m.ix.I_1k k + j) < m.max_depth_k k) →
      (∀ j, 1 ≤ j → j < m.ix.nk k → (m.advance geo inp wk cur co x).h (m.ix.I_1k k + j) = s.h (m.ix.I_1k k + j)) ∧
      ∀ j, j < m.ix.nk k → (m.advance geo inp wk cur co x).Q (m.ix.i_1k k + j) = s.Q (m.ix.i_1k k + j)) := by
  have n1 := c.layout.pos k hk
  have R := numbaSolveInternals_spec (sweptFwd m.g co m.ix wk.f) (sweptBwd m.g co m.ix wk.b) m.min_depth
    m.max_depth_k (endDepthU m geo wk cur co (m.advance geo inp wk cur co x).H)
    (endDepthD m geo wk cur co (m.advance geo inp wk cur co x).H) m.ix.i_1k m.ix.I_1k m.ix.nk m.ix.NK m.back
    ⟨cur.h, cur.Q⟩ c.layout k hk
  have low : ∀ I, (m.advance geo inp wk cur co x).h I = max m.min_depth
      ((numbaSolveInternals (sweptFwd m.g co m.ix wk.f) (sweptBwd m.g co m.ix wk.b) m.min_depth
        m.max_depth_k (endDepthU m geo wk cur co (m.advance geo inp wk cur co x).H)
        (endDepthD m geo wk cur co (m.advance geo inp wk cur co x).H) m.ix.i_1k m.ix.I_1k m.ix.nk m.ix.NK m.back
        ⟨cur.h, cur.Q⟩).h I) := by
    intro I
    show (if _ < m.min_depth then m.min_depth else _) = _
    split_ifs with h
    · exact (max_eq_left h.le).symm
    · exact (max_eq_right (not_lt.mp h)).symm
  refine ⟨?_, ?_, fun strict => ?_⟩
  · rw [low, e.first]; have := R.h0; simp only [add_zero] at this; rw [this]
  · rw [low, e.last]; have := R.hn; rw [this]
  · have F := sweptFwd_rel m.g co m.ix wk.f c.layout hk
    have B := sweptBwd_rel m.g co m.ix wk.b c.layout hk
    have ph := physical c ps hc hk
    have S := (saintVenant_iff c st ps hc s hk).2 ⟨e.momentum, e.continuity⟩
    have inner : ∀ j, 1 ≤ j → j < m.ix.nk k → (m.advance geo inp wk cur co x).h (m.ix.I_1k k + j)
        = (numbaSolveInternals (sweptFwd m.g co m.ix wk.f) (sweptBwd m.g co m.ix wk.b) m.min_depth
        m.max_depth_k (endDepthU m geo wk cur co (m.advance geo inp wk cur co x).H)
        (endDepthD m geo wk cur co (m.advance geo inp wk cur co x).H) m.ix.i_1k m.ix.I_1k m.ix.nk m.ix.NK m.back
        ⟨cur.h, cur.Q⟩).h (m.ix.I_1k k + j) := by
      intro j h1 h2
      have h3 := (strict j h1 h2).1
      rw [low] at h3 ⊢
      rcases lt_max_iff.1 h3 with h | h
      · exact absurd h (lt_irrefl _)
      · exact max_eq_right h.le
    obtain ⟨a, b⟩ := internals_eq_solution n1 F B (physical_fwdPivots ph F) (physical_bwdPivots ph B)
      (fun j _ h2 => (bwd_signs ph B j h2).2.2.1.ne') R S (by simpa using e.first) e.last
      (fun j h1 h2 => Or.inr (by rw [← inner j h1 h2]; exact strict j h1 h2))
    exact ⟨fun j h1 h2 => by rw [inner j h1 h2]; exact a j h2.le, fun j hj => b j hj⟩

/-! ### The account -/

/-- The weight of a head is at least its free surface. -/
theorem headWeight_ge (c : m.Consistent) (ps : PhysicalStep m geo inp) (cw : CleanWork m wk.mats)
    (hc : StepCoefs m.g m.N (m.linkIn geo inp prev cur) (m.nodeIn geo inp prev) m.nix co)
    (hb : ∀ i, i < m.M → m.bc i = false) {j : ℕ} (hj : j < m.M) :
    surfaceAt m geo cur j ≤ headWeight m geo inp wk cur co j := by
  have h := system_col_weight (m.net geo inp wk cur co) inp.dt wk.mats cw.mats (signed c ps hc) j hj (hb j hj)
  have e : (Finset.range (m.net geo inp wk cur co).M).filter (fun i => (m.net geo inp wk cur co).bc i = false)
      = Finset.range m.M := Finset.filter_true_of_mem fun i hi => hb i (Finset.mem_range.mp hi)
  rw [e] at h
  rw [← area_eq (wk := wk) (co := co) ps j]
  have h2 := mul_le_mul_of_nonneg_left h ps.dt_pos.le
  refine le_trans (le_of_eq ?_) h2
  have dt0 := ps.dt_pos.ne'
  unfold Network.area
  field_simp

/-- The superjunctions: with the heads the step reports, they gain what flows in, apart from what limiting
the heads adds. -/
theorem heads_account (c : m.Consistent) (ps : PhysicalStep m geo inp) (cw : CleanWork m wk.mats)
    (p : Pass m geo inp wk prev cur co x) (hb : ∀ i, i < m.M → m.bc i = false) (y : ℕ → ℝ) :
    ∑ i ∈ Finset.range m.M, surfaceAt m geo cur i * (y i - prev.H i)
      = inp.dt * ∑ i ∈ Finset.range m.M, (inp.Q_in i + (m.net geo inp wk cur co).links.inflow y i
          + (m.net geo inp wk cur co).orifices.inflow y i + (m.net geo inp wk cur co).weirs.inflow y i
          + (m.net geo inp wk cur co).pumps.inflow y i)
        + ∑ j ∈ Finset.range m.M, headWeight m geo inp wk cur co j * (y j - x j) := by
  set net := m.net geo inp wk cur co with hnet
  set I : ℕ → ℝ := fun i => net.links.inflow y i + net.orifices.inflow y i + net.weirs.inflow y i
    + net.pumps.inflow y i with hI
  set q : ℕ → ℝ := fun i => (net.As i / inp.dt + net.links.xiSum i) * (y i - prev.H i) - I i with hq
  have hx := p.solve
  have hy : Solves m.M (m.lhs geo inp wk cur co) (assembleB net inp.dt prev.H q y) y := by
    refine (solves_iff net inp.dt wk.mats cw.mats (wired c) prev.H q y y).2 fun i _ => ⟨fun _ => rfl, fun _ => ?_⟩
    simp only [Network.Balanced, hq, hI]
    ring
  have key : ∑ j ∈ Finset.range m.M, headWeight m geo inp wk cur co j * (y j - x j)
      = inp.dt * ∑ i ∈ Finset.range m.M, (q i - inp.Q_in i) := by
    have row : ∀ i ∈ Finset.range m.M, ∑ j ∈ Finset.range m.M, m.lhs geo inp wk cur co i j * (y j - x j)
        = q i - inp.Q_in i := by
      intro i hi
      have hi := Finset.mem_range.mp hi
      have h1 := hy i hi
      have h2 := hx i hi
      simp only [mul_sub, Finset.sum_sub_distrib]
      rw [h1, h2]
      have hbi : net.bc i = false := hb i hi
      simp only [Model.rhs, ← hnet, assembleB, hbi, Bool.false_eq_true, if_false]
      ring
    rw [← Finset.sum_congr rfl row, Finset.sum_comm, Finset.mul_sum]
    apply Finset.sum_congr rfl
    intro j _
    rw [headWeight, mul_assoc, Finset.sum_mul]
  rw [key, ← mul_add, ← Finset.sum_add_distrib, Finset.mul_sum]
  apply Finset.sum_congr rfl
  intro i _
  rw [← area_eq (wk := wk) (co := co) ps i, ← hnet]
  have dt0 := ps.dt_pos.ne'
  simp only [hq, hI, Network.area]
  field_simp
  ring

/-- **C149 (account).** In every step of a network without fixed heads the water gained is the water supplied,
plus what raising or lowering the depths of the pipes to their limits adds, plus what limiting the heads
adds. Default end method. -/
theorem C149_account (c : m.Consistent) (st : StartTables m) (ps : PhysicalStep m geo inp)
    (cw : CleanWork m wk.mats) (p : Pass m geo inp wk prev cur co x) (he : m.end_method = .b)
    (hb : ∀ i, i < m.M → m.bc i = false) {s : ℕ → Hyd}
    (hs : ∀ k, k < m.ix.NK → Exact m geo inp wk prev cur co (m.advance geo inp wk cur co x).H k (s k)) :
    gained m geo prev cur (m.advance geo inp wk cur co x)
      = supplied m inp
        + ∑ k ∈ Finset.range m.ix.NK, ∑ j ∈ Finset.range (m.ix.nk k + 1), surfaceArea m geo k j
            * ((m.advance geo inp wk cur co x).h (m.ix.I_1k k + j) - (s k).h (m.ix.I_1k k + j))
        + ∑ j ∈ Finset.range m.M, headWeight m geo inp wk cur co j * ((m.advance geo inp wk cur co x).H j - x j) := by
  set next := m.advance geo inp wk cur co x with hnext
  have hw : Wired (m.net geo inp wk cur co) := wired c
  have dt0 := ps.dt_pos.ne'
  have hd := heads_account c ps cw p hb next.H
  rw [Finset.sum_add_distrib, Finset.sum_add_distrib, Finset.sum_add_distrib, Finset.sum_add_distrib,
    ctrl_inflow_sum _ m.M hw.ou hw.od, ctrl_inflow_sum _ m.M hw.wu hw.wd, ctrl_inflow_sum _ m.M hw.pu hw.pd,
    link_inflow_sum _ m.M hw.lu hw.ld] at hd
  have pipe : ∀ k ∈ Finset.range m.ix.NK, ∑ j ∈ Finset.range (m.ix.nk k + 1),
      surfaceArea m geo k j * (next.h (m.ix.I_1k k + j) - prev.h (m.ix.I_1k k + j))
      = inp.dt * (next.Qu k - next.Qd k) + inp.dt * ∑ j ∈ Finset.range (m.ix.nk k + 1), inp.Q_0Ik (m.ix.I_1k k + j)
        + ∑ j ∈ Finset.range (m.ix.nk k + 1), surfaceArea m geo k j
            * (next.h (m.ix.I_1k k + j) - (s k).h (m.ix.I_1k k + j)) := by
    intro k hk
    have hk := Finset.mem_range.mp hk
    have e := hs k hk
    obtain ⟨f1, f2⟩ := e.flows c st ps he p.coefs hk
    have S := continuity_sum (c.layout.pos k hk) ((saintVenant_iff c st ps p.coefs (s k) hk).2 ⟨e.momentum, e.continuity⟩)
    have g1 : (s k).Qu k = next.Qu k := f1
    have g2 : (s k).Qd k = next.Qd k := f2
    rw [g1, g2] at S
    rw [S, ← mul_add, ← Finset.sum_add_distrib, Finset.mul_sum, ← Finset.sum_add_distrib]
    apply Finset.sum_congr rfl
    intro j hj
    have hj : j ≤ m.ix.nk k := by have := Finset.mem_range.mp hj; omega
    obtain ⟨eE, eD⟩ := node_coeffs_eq (y := m.nodeIn geo inp prev) (c.layout.pos k hk) (c.nodes k hk) hj
    simp only [Coef.slice]
    rw [p.coefs.2.1, p.coefs.2.2, eE, eD, surfaceArea_eq]
    simp only [Model.nodeIn]
    field_simp
    ring
  have e : ∑ k ∈ Finset.range (m.net geo inp wk cur co).links.n,
      ((m.net geo inp wk cur co).links.Qd next.H k - (m.net geo inp wk cur co).links.Qu next.H k)
      = - ∑ k ∈ Finset.range m.ix.NK, (next.Qu k - next.Qd k) := by
    rw [← Finset.sum_neg_distrib]
    apply Finset.sum_congr rfl
    intro k _
    rw [hnext, (C07_reported_flows k).1, (C07_reported_flows k).2]
    ring
  rw [e] at hd
  rw [gained, hd, Finset.sum_congr rfl pipe, Finset.sum_add_distrib, Finset.sum_add_distrib, supplied,
    ← Finset.mul_sum, ← Finset.mul_sum]
  ring

/-- What a limited end of a pipe adds. -/
def endRaise (m : Model) (geo : Geo) (k j : ℕ) (d : ℝ) : ℝ := surfaceArea m geo k j * (max m.min_depth d - d)

theorem surfaceArea_nonneg (c : m.Consistent) (ps : PhysicalStep m geo inp) {k : ℕ} (hk : k < m.ix.NK) {j : ℕ}
    (hj : j ≤ m.ix.nk k) : 0 ≤ surfaceArea m geo k j := by
  have hN := c.inN k hk
  have n1 := c.layout.pos k hk
  have hA := ps.AS_nonneg (m.ix.I_1k k + j)
  have hu := mul_nonneg (ps.dxu k hk) (ps.Bu k hk)
  have hd := mul_nonneg (ps.dxd k hk) (ps.Bd k hk)
  unfold surfaceArea
  have a1 : 0 ≤ (if j = 0 then m.dx_uk k * geo.B_u k / 2
    else m.dx (m.ix.i_1k k + j - 1) * geo.B (m.ix.i_1k k + j - 1) / 2) := by
    split_ifs with h
    · linarith
    · have := mul_nonneg (ps.dx_pos (m.ix.i_1k k + j - 1) (by omega)).le (ps.B_nonneg (m.ix.i_1k k + j - 1) (by omega))
      linarith
  have a2 : 0 ≤ (if j = m.ix.nk k then m.dx_dk k * geo.B_d k / 2
    else m.dx (m.ix.i_1k k + j) * geo.B (m.ix.i_1k k + j) / 2) := by
    split_ifs with h
    · linarith
    · have := mul_nonneg (ps.dx_pos (m.ix.i_1k k + j) (by omega)).le (ps.B_nonneg (m.ix.i_1k k + j) (by omega))
      linarith
  linarith

/-- **C149 (dry ends create water).** If no head and no interior depth reached a limit, the step gains what is
supplied plus what raising the ends of the pipes to `min_depth` adds: never less than supplied, and more as
soon as an end with a free surface is below `min_depth`. -/
theorem C149_dry_ends (c : m.Consistent) (st : StartTables m) (ps : PhysicalStep m geo inp)
    (cw : CleanWork m wk.mats) (p : Pass m geo inp wk prev cur co x) (he : m.end_method = .b)
    (hb : ∀ i, i < m.M → m.bc i = false)
    (hx : ∀ j, j < m.M → m.z_inv j ≤ x j ∧ x j ≤ m.z_inv j + m.max_depth j)
    (hin : ∀ k, k < m.ix.NK → ∀ j, 1 ≤ j → j < m.ix.nk k →
      m.min_depth < (m.advance geo inp wk cur co x).h (m.ix.I_1k k + j) ∧
      (m.advance geo inp wk cur co x).h (m.ix.I_1k k + j) < m.max_depth_k k) :
    gained m geo prev cur (m.advance geo inp wk cur co x) = supplied m inp
      + ∑ k ∈ Finset.range m.ix.NK,
          (endRaise m geo k 0 (endDepthU m geo wk cur co (m.advance geo inp wk cur co x).H k)
            + endRaise m geo k (m.ix.nk k) (endDepthD m geo wk cur co (m.advance geo inp wk cur co x).H k)) ∧
    supplied m inp ≤ gained m geo prev cur (m.advance geo inp wk cur co x) ∧
    ∀ k, k < m.ix.NK →
      (0 < surfaceArea m geo k 0 → endDepthU m geo wk cur co (m.advance geo inp wk cur co x).H k < m.min_depth →
        supplied m inp < gained m geo prev cur (m.advance geo inp wk cur co x)) ∧
      (0 < surfaceArea m geo k (m.ix.nk k) →
        endDepthD m geo wk cur co (m.advance geo inp wk cur co x).H k < m.min_depth →
        supplied m inp < gained m geo prev cur (m.advance geo inp wk cur co x)) := by
  set next := m.advance geo inp wk cur co x with hnext
  have ex : ∀ k, ∃ s, k < m.ix.NK → Exact m geo inp wk prev cur co next.H k s := fun k => by
    by_cases hk : k < m.ix.NK
    · obtain ⟨s, h⟩ := exact_exists (wk := wk) c st ps he p.coefs hk next.H
      exact ⟨s, fun _ => h⟩
    · exact ⟨cur, fun h => absurd h hk⟩
  choose s hs using ex
  have acc := C149_account c st ps cw p he hb hs
  have heads : ∑ j ∈ Finset.range m.M, headWeight m geo inp wk cur co j * (next.H j - x j) = 0 := by
    apply Finset.sum_eq_zero
    intro j hj
    have hj := hx j (Finset.mem_range.mp hj)
    have : next.H j = x j := by
      show clipHead m.z_inv m.max_depth x j = x j
      rw [clipHead, max_eq_left hj.1, min_eq_left hj.2]
    rw [this, sub_self, mul_zero]
  rw [← hnext, heads, add_zero] at acc
  have pipe : ∀ k ∈ Finset.range m.ix.NK, ∑ j ∈ Finset.range (m.ix.nk k + 1), surfaceArea m geo k j
      * (next.h (m.ix.I_1k k + j) - (s k).h (m.ix.I_1k k + j))
      = endRaise m geo k 0 (endDepthU m geo wk cur co next.H k)
            + endRaise m geo k (m.ix.nk k) (endDepthD m geo wk cur co next.H k) := by
    intro k hk
    have hk := Finset.mem_range.mp hk
    have n1 := c.layout.pos k hk
    have e := hs k hk
    obtain ⟨r0, rn, ri⟩ := e.reported c st ps p.coefs hk
    obtain ⟨ri, -⟩ := ri (hin k hk)
    rw [← hnext] at r0 rn ri
    rw [Finset.sum_range_succ]
    obtain ⟨n, hn⟩ : ∃ n, m.ix.nk k = n + 1 := ⟨m.ix.nk k - 1, by omega⟩
    have z : ∑ j ∈ Finset.range (m.ix.nk k), surfaceArea m geo k j
        * (next.h (m.ix.I_1k k + j) - (s k).h (m.ix.I_1k k + j))
        = surfaceArea m geo k 0 * (next.h (m.ix.I_1k k) - (s k).h (m.ix.I_1k k)) := by
      rw [hn, Finset.sum_range_succ', Finset.sum_eq_zero (fun j hj => by
        have := Finset.mem_range.mp hj
        rw [ri (j + 1) (by omega) (by omega), sub_self, mul_zero]), zero_add, add_zero]
    rw [z, r0, rn, e.first, e.last]
    rfl
  rw [Finset.sum_congr rfl pipe] at acc
  have pos : ∀ k, k < m.ix.NK → 0 ≤ endRaise m geo k 0 (endDepthU m geo wk cur co next.H k) ∧
      0 ≤ endRaise m geo k (m.ix.nk k) (endDepthD m geo wk cur co next.H k) := fun k hk =>
    ⟨mul_nonneg (surfaceArea_nonneg c ps hk (Nat.zero_le _)) (sub_nonneg.2 (le_max_right _ _)),
      mul_nonneg (surfaceArea_nonneg c ps hk le_rfl) (sub_nonneg.2 (le_max_right _ _))⟩
  have one : ∀ k, k < m.ix.NK → endRaise m geo k 0 (endDepthU m geo wk cur co next.H k)
      + endRaise m geo k (m.ix.nk k) (endDepthD m geo wk cur co next.H k)
      ≤ gained m geo prev cur next - supplied m inp := by
    intro k hk
    rw [acc, add_sub_cancel_left]
    exact Finset.single_le_sum (f := fun k => endRaise m geo k 0 (endDepthU m geo wk cur co next.H k)
      + endRaise m geo k (m.ix.nk k) (endDepthD m geo wk cur co next.H k))
      (fun k hk => add_nonneg (pos k (Finset.mem_range.mp hk)).1 (pos k (Finset.mem_range.mp hk)).2)
      (Finset.mem_range.mpr hk)
  refine ⟨acc, ?_, fun k hk => ⟨fun h1 h2 => ?_, fun h1 h2 => ?_⟩⟩
  · rw [acc]
    exact le_add_of_nonneg_right (Finset.sum_nonneg fun k hk =>
      add_nonneg (pos k (Finset.mem_range.mp hk)).1 (pos k (Finset.mem_range.mp hk)).2)
  · have h3 : 0 < endRaise m geo k 0 (endDepthU m geo wk cur co next.H k) :=
      mul_pos h1 (sub_pos.2 (lt_max_of_lt_left h2))
    have := one k hk
    have := (pos k hk).2
    linarith
  · have h3 : 0 < endRaise m geo k (m.ix.nk k) (endDepthD m geo wk cur co next.H k) :=
      mul_pos h1 (sub_pos.2 (lt_max_of_lt_left h2))
    have := one k hk
    have := (pos k hk).1
    linarith

/-- **C149, as far as it holds.** If no head and no interior depth reached a limit and the ends of the pipes have
a free surface, water is conserved exactly when no end was raised to `min_depth`. What is missing: limits that
act (`C149_account` says what they add). -/
theorem C149_conserved_partial (c : m.Consistent) (st : StartTables m) (ps : PhysicalStep m geo inp)
    (cw : CleanWork m wk.mats) (p : Pass m geo inp wk prev cur co x) (he : m.end_method = .b)
    (hb : ∀ i, i < m.M → m.bc i = false)
    (hx : ∀ j, j < m.M → m.z_inv j ≤ x j ∧ x j ≤ m.z_inv j + m.max_depth j)
    (hin : ∀ k, k < m.ix.NK → ∀ j, 1 ≤ j → j < m.ix.nk k →
      m.min_depth < (m.advance geo inp wk cur co x).h (m.ix.I_1k k + j) ∧
      (m.advance geo inp wk cur co x).h (m.ix.I_1k k + j) < m.max_depth_k k)
    (hS : ∀ k, k < m.ix.NK → 0 < surfaceArea m geo k 0 ∧ 0 < surfaceArea m geo k (m.ix.nk k)) :
    gained m geo prev cur (m.advance geo inp wk cur co x) = supplied m inp ↔
      ∀ k, k < m.ix.NK → m.min_depth ≤ endDepthU m geo wk cur co (m.advance geo inp wk cur co x).H k ∧
        m.min_depth ≤ endDepthD m geo wk cur co (m.advance geo inp wk cur co x).H k := by
  obtain ⟨acc, -, strict⟩ := C149_dry_ends c st ps cw p he hb hx hin
  constructor
  · intro h k hk
    constructor
    · by_contra hc
      exact absurd h ((strict k hk).1 (hS k hk).1 (not_le.mp hc)).ne'
    · by_contra hc
      exact absurd h ((strict k hk).2 (hS k hk).2 (not_le.mp hc)).ne'
  · intro h
    rw [acc, Finset.sum_eq_zero, add_zero]
    intro k hk
    obtain ⟨h1, h2⟩ := h k (Finset.mem_range.mp hk)
    rw [endRaise, endRaise, max_eq_right h1, max_eq_right h2, sub_self, sub_self, mul_zero, mul_zero, add_zero]

/-- **C149 (perched ends).** The downstream end of a pipe above the head of its superjunction, without exit
loss, is given depth 0 and raised to `min_depth`: `surface × min_depth` of water is added in every step, for
every flow and every step size. -/
theorem C149_perched_down (ps : PhysicalStep m geo inp) (c : m.Consistent)
    (hc : StepCoefs m.g m.N (m.linkIn geo inp prev cur) (m.nodeIn geo inp prev) m.nix co) {k : ℕ} (hk : k < m.ix.NK)
    (hH : cur.H (m.Jd k) < m.z_dk k) (hC : m.C_dk k = 0 ∨ cur.Qd k = 0) (hmin : 0 ≤ m.min_depth) (H : ℕ → ℝ) :
    endDepthD m geo wk cur co H k = 0 ∧
      endRaise m geo k (m.ix.nk k) (endDepthD m geo wk cur co H k)
        = surfaceArea m geo k (m.ix.nk k) * m.min_depth := by
  have D0 : DkStar (m.endRec wk co k) (m.headCoef geo cur k) ≠ 0 :=
    ne_of_gt (lt_of_lt_of_le zero_lt_one (DkStar_ge_one (step_endSigns c ps hc hk) (step_headSigns ps hk)))
  have h := (C04_end_relations (m.endRec wk co k) (m.headCoef geo cur k) (H (m.Ju k)) (H (m.Jd k)) D0).downstream
  have z : endDepthD m geo wk cur co H k = 0 := by
    refine h.trans ?_
    have k0 : (m.headCoef geo cur k).kappa_d = 0 := by
      rcases hC with h | h <;> simp [Model.headCoef, headCoefZ, gammaDk, safeDivide_eq, h]
    have l0 : (m.headCoef geo cur k).lam_d = 0 := by simp [Model.headCoef, headCoefZ, theta, hH]
    have m0 : (m.headCoef geo cur k).mu_d = 0 := by simp [Model.headCoef, headCoefZ, theta, hH]
    rw [k0, l0, m0]; ring
  refine ⟨z, ?_⟩
  rw [z, endRaise, max_eq_left hmin, sub_zero]

/-- **C149 (perched ends)**, upstream. -/
theorem C149_perched_up (ps : PhysicalStep m geo inp) (c : m.Consistent)
    (hc : StepCoefs m.g m.N (m.linkIn geo inp prev cur) (m.nodeIn geo inp prev) m.nix co) {k : ℕ} (hk : k < m.ix.NK)
    (hH : cur.H (m.Ju k) < m.z_uk k) (hC : m.C_uk k = 0 ∨ cur.Qu k = 0) (hmin : 0 ≤ m.min_depth) (H : ℕ → ℝ) :
    endDepthU m geo wk cur co H k = 0 ∧
      endRaise m geo k 0 (endDepthU m geo wk cur co H k) = surfaceArea m geo k 0 * m.min_depth := by
  have D0 : DkStar (m.endRec wk co k) (m.headCoef geo cur k) ≠ 0 :=
    ne_of_gt (lt_of_lt_of_le zero_lt_one (DkStar_ge_one (step_endSigns c ps hc hk) (step_headSigns ps hk)))
  have h := (C04_end_relations (m.endRec wk co k) (m.headCoef geo cur k) (H (m.Ju k)) (H (m.Jd k)) D0).upstream
  have z : endDepthU m geo wk cur co H k = 0 := by
    refine h.trans ?_
    have k0 : (m.headCoef geo cur k).kappa_u = 0 := by
      rcases hC with h | h <;> simp [Model.headCoef, headCoefZ, gammaUk, safeDivide_eq, h]
    have l0 : (m.headCoef geo cur k).lam_u = 0 := by simp [Model.headCoef, headCoefZ, theta, hH]
    have m0 : (m.headCoef geo cur k).mu_u = 0 := by simp [Model.headCoef, headCoefZ, theta, hH]
    rw [k0, l0, m0]; ring
  refine ⟨z, ?_⟩
  rw [z, endRaise, max_eq_left hmin, sub_zero]

/-- **C149 (limited heads).** If no depth of a pipe was limited: a step which raised heads to the invert gained
at least the volume under the raised surfaces more than supplied, a step which lowered heads to the maximum
lost at least the volume above. -/
theorem C149_heads (c : m.Consistent) (st : StartTables m) (ps : PhysicalStep m geo inp)
    (cw : CleanWork m wk.mats) (p : Pass m geo inp wk prev cur co x) (he : m.end_method = .b)
    (hb : ∀ i, i < m.M → m.bc i = false) {s : ℕ → Hyd}
    (hs : ∀ k, k < m.ix.NK → Exact m geo inp wk prev cur co (m.advance geo inp wk cur co x).H k (s k))
    (hp : ∀ k, k < m.ix.NK → ∀ j, j ≤ m.ix.nk k →
      (m.advance geo inp wk cur co x).h (m.ix.I_1k k + j) = (s k).h (m.ix.I_1k k + j)) :
    ((∀ j, j < m.M → x j ≤ m.z_inv j + m.max_depth j) → (∀ j, j < m.M → 0 ≤ m.max_depth j) →
      supplied m inp + ∑ j ∈ Finset.range m.M, surfaceAt m geo cur j * max (m.z_inv j - x j) 0
        ≤ gained m geo prev cur (m.advance geo inp wk cur co x)) ∧
    ((∀ j, j < m.M → m.z_inv j ≤ x j) →
      gained m geo prev cur (m.advance geo inp wk cur co x)
        ≤ supplied m inp - ∑ j ∈ Finset.range m.M, surfaceAt m geo cur j * max (x j - (m.z_inv j + m.max_depth j)) 0) := by
  have acc := C149_account c st ps cw p he hb hs
  rw [Finset.sum_eq_zero (fun k hk => Finset.sum_eq_zero fun j hj => by
    have hk := Finset.mem_range.mp hk
    have hj := Finset.mem_range.mp hj
    rw [hp k hk j (by omega), sub_self, mul_zero]), add_zero] at acc
  have W : ∀ j, j < m.M → surfaceAt m geo cur j ≤ headWeight m geo inp wk cur co j :=
    fun j hj => headWeight_ge c ps cw p.coefs hb hj
  constructor
  · intro h1 h2
    rw [acc]
    refine add_le_add le_rfl (Finset.sum_le_sum fun j hj => ?_)
    have hj := Finset.mem_range.mp hj
    have e : (m.advance geo inp wk cur co x).H j - x j = max (m.z_inv j - x j) 0 := by
      show min (max (x j) (m.z_inv j)) (m.z_inv j + m.max_depth j) - x j = _
      have a1 := h1 j hj
      have a2 := h2 j hj
      rcases le_total (x j) (m.z_inv j) with h | h
      · rw [max_eq_right h, max_eq_left (by linarith), min_eq_left (by linarith)]
      · rw [max_eq_left h, max_eq_right (by linarith), min_eq_left a1, sub_self]
    rw [e]
    exact mul_le_mul_of_nonneg_right (W j hj) (le_max_right _ _)
  · intro h1
    rw [acc, sub_eq_add_neg, ← Finset.sum_neg_distrib]
    refine add_le_add le_rfl (Finset.sum_le_sum fun j hj => ?_)
    have hj := Finset.mem_range.mp hj
    have e : (m.advance geo inp wk cur co x).H j - x j = -max (x j - (m.z_inv j + m.max_depth j)) 0 := by
      show min (max (x j) (m.z_inv j)) (m.z_inv j + m.max_depth j) - x j = _
      rw [max_eq_left (h1 j hj)]
      rcases le_total (x j) (m.z_inv j + m.max_depth j) with h | h
      · rw [min_eq_left h, max_eq_right (by linarith)]; ring
      · rw [min_eq_right h, max_eq_left (by linarith)]; ring
    rw [e, mul_neg, neg_le_neg_iff]
    exact mul_le_mul_of_nonneg_right (W j hj) (le_max_right _ _)

/-! ### A network which fills itself -/

/-- Two tanks of area 1 with bottom at 0, joined by a level channel of length 10 and width 1 whose ends are 1
above the bottoms; `min_depth = ε`. -/
def flModel (ε : ℝ) : Model :=
  { reModel with bc := fun _ => false, dx_uk := fun _ => 0, dx_dk := fun _ => 0, min_depth := ε }

/-- A step of size `dt`; nothing is supplied. -/
def flInp (dt : ℝ) : Inputs where
  dt := dt
  H_bc := none
  Q_in := fun _ => 0
  Q_0Ik := fun _ => 0
  u_o := fun _ => 0
  u_w := fun _ => 0
  u_p := fun _ => 0

/-- Empty tanks, the channel at `min_depth`, everything at rest. -/
def flStart (ε : ℝ) : Obj where
  saved := ⟨fun _ => 0, fun _ => ε, fun _ => 0, fun _ => 0, fun _ => 0, fun _ => 0, fun _ => 0, fun _ => 0⟩
  cur := ⟨fun _ => 0, fun _ => ε, fun _ => 0, fun _ => 0, fun _ => 0, fun _ => 0, fun _ => 0, fun _ => 0⟩
  wk := freshWork
  hid := Hidden.fresh fun _ => 0

theorem flConsistent (ε : ℝ) : (flModel ε).Consistent := by
  refine ⟨⟨fun _ _ => ?_, fun k k' h h' hk => ?_, fun k k' h h' hk => ?_⟩, ?_, fun k hk => ⟨?_, ?_, ?_, ?_, ?_⟩,
    ?_, ?_, ?_, ?_, ?_, ?_, ?_, ?_⟩ <;> simp [flModel, reModel] at * <;> try omega

theorem flSound {ε : ℝ} (hε : 0 < ε) : Sound (flModel ε) inPlan := by
  refine ⟨flConsistent ε, ?_, ?_, ?_, ?_, ?_, ?_, ?_, ?_, ?_, ?_, ?_, ?_, ?_, ?_, ?_, ?_⟩
  all_goals first
    | exact hε
    | (intros; simp [flModel, inPlan, reModel, rePlan, Section.Usable, Wettable, Valid, Storage.Usable]; done)
    | (norm_num [flModel, inPlan, reModel, rePlan, Section.Usable, Wettable, Valid, Storage.Usable])

theorem flTables (ε : ℝ) : StartTables (flModel ε) := by
  refine ⟨fun k hk j hj => ?_, fun k hk j hj => ?_⟩ <;> simp [flModel, reModel] at *

theorem flGood (ε : ℝ) {dt : ℝ} (hdt : 0 < dt) : GoodInputs (flModel ε) inPlan (flInp dt) :=
  ⟨hdt, fun p hp => by simp [flModel, reModel] at hp, fun a ha => by simp [flModel, reModel] at ha⟩

/-- Both tanks filled to `a`, the channel at `min_depth` and at rest. -/
structure FlState (ε : ℝ) (o : Obj) (a : ℝ) : Prop where
  good : GoodObj (flModel ε) o
  H : ∀ i, i < 2 → o.cur.H i = a
  h : ∀ I, I < 2 → o.cur.h I = ε
  Q : o.cur.Q 0 = 0

theorem flStart_state (ε : ℝ) : FlState ε (flStart ε) 0 :=
  ⟨⟨freshClean _, fun _ => le_rfl⟩, fun _ _ => rfl, fun _ _ => rfl, rfl⟩

/-- One step: the exact equations empty the channel through both ends, the floor fills it again. -/
theorem fl_call {ε dt a : ℝ} (hε : 0 < ε) (hdt : 0 < dt) (ha : 0 ≤ a) (ha1 : a + 5 * ε ≤ 1) {o o1 : Obj}
    (s : FlState ε o a) (h : Calls1 (flModel ε) inPlan true (flInp dt) o o1) : FlState ε o1 (a + 5 * ε) := by
  have gn := s.good.next (flConsistent ε) h
  obtain ⟨Ao, co, x, -, p, rfl⟩ := h
  have c := flConsistent ε
  have st := flTables ε
  have ps := physical_geoOf (flSound hε) (flGood ε hdt) o.hid Ao s.good.wet
  have hB : ((flModel ε).geoOf inPlan o.hid Ao o.cur).B 0 = 1 := rfl
  have hAs : ∀ i, i < 2 → ((flModel ε).geoOf inPlan o.hid Ao o.cur).As i = 1 := by
    intro i hi
    have hi' : i < (flModel ε).M := hi
    simp only [Model.geoOf]
    rw [upTo_of_lt _ hi']
    have hd : 0 ≤ storageDepth (o.cur.H i) ((flModel ε).z_inv i) (flModel ε).min_depth := le_max_of_le_right hε.le
    simp [inPlan, rePlan, Storage.A, functionalArea, hd]
  generalize (flModel ε).geoOf inPlan o.hid Ao o.cur = geo at p gn ps hB hAs ⊢
  simp only [if_true] at p gn ⊢
  have hk : 0 < (flModel ε).ix.NK := Nat.zero_lt_one
  have Hlow : ∀ i, i < 2 → o.cur.H i < 1 := fun i hi => by rw [s.H i hi]; linarith
  have zero : ∀ H : ℕ → ℝ, endDepthU (flModel ε) geo o.wk o.cur co H 0 = 0 ∧
      endDepthD (flModel ε) geo o.wk o.cur co H 0 = 0 := fun H =>
    ⟨(C149_perched_up ps c p.coefs hk (Hlow 0 (by norm_num)) (Or.inl rfl) hε.le H).1,
      (C149_perched_down ps c p.coefs hk (Hlow 1 (by norm_num)) (Or.inl rfl) hε.le H).1⟩
  have sa0 : surfaceArea (flModel ε) geo 0 0 = 5 := by
    have e : surfaceArea (flModel ε) geo 0 0 = 0 * geo.B_u 0 / 2 + 10 * geo.B 0 / 2 + 0 := rfl
    rw [e, hB]; norm_num
  have sa1 : surfaceArea (flModel ε) geo 0 1 = 5 := by
    have e : surfaceArea (flModel ε) geo 0 1 = 10 * geo.B 0 / 2 + 0 * geo.B_d 0 / 2 + 0 := rfl
    rw [e, hB]; norm_num
  -- the exact state of the channel
  have sol : ∀ (H : ℕ → ℝ) (t : Hyd), Exact (flModel ε) geo (flInp dt) o.wk o.cur o.cur co H 0 t →
      t.h 0 = 0 ∧ t.h 1 = 0 ∧ t.Q 0 = 0 ∧ t.Qu 0 = -(5 * ε) / dt ∧ t.Qd 0 = 5 * ε / dt := by
    intro H t e
    have h0 : t.h 0 = 0 := e.first.trans (zero H).1
    have h1 : t.h 1 = 0 := e.last.trans (zero H).2
    have mo := e.momentum 0 Nat.zero_lt_one
    have i1 : (flModel ε).ix.i_1k 0 = 0 := rfl
    have I1 : (flModel ε).ix.I_1k 0 = 0 := rfl
    have n1 : (flModel ε).ix.nk 0 = 1 := rfl
    have S0 : (flModel ε).S_o 0 = 0 := rfl
    have D0 : (flModel ε).dx 0 = 10 := rfl
    have M0 : (flModel ε).method 0 = 0 := rfl
    have C0 : (flModel ε).ctrl 0 = false := rfl
    have T0 : (flInp dt).dt = dt := rfl
    have Q0 : t.Q 0 = 0 := by
      have sg := ps.sigma_pos 0 Nat.zero_lt_one
      simp only [MomentumEq, i1, I1, velocityUp, velocityDown, s.Q, S0, D0, M0, C0, frictionLaw, n1, T0, h0, h1,
        zero_add, add_zero] at mo
      have key : geo.sigma 0 * 10 * (t.Q 0 / dt) = 0 := by simpa using mo
      rcases mul_eq_zero.1 key with h | h
      · linarith
      · rcases div_eq_zero_iff.1 h with h | h
        · exact h
        · exact absurd h hdt.ne'
    have c0 := e.continuity 0 (Nat.zero_le _)
    have c1 := e.continuity 1 le_rfl
    have q0 : ∀ I, (flInp dt).Q_0Ik I = 0 := fun _ => rfl
    simp only [ContinuityEq, arriving, leaving, i1, I1, n1, T0, sa0, sa1, zero_add, add_zero, h0, h1, q0,
      s.h 0 (by norm_num), s.h 1 (by norm_num), Q0, if_true, Nat.zero_ne_one, if_false, one_ne_zero, Nat.sub_self] at c0 c1
    refine ⟨h0, h1, Q0, ?_, ?_⟩
    · field_simp at c0 ⊢; linarith
    · field_simp at c1 ⊢; linarith
  -- the heads
  obtain ⟨t, et⟩ := exact_exists (wk := o.wk) c st ps rfl p.coefs hk x
  obtain ⟨-, -, -, tu, td⟩ := sol x t et
  obtain ⟨fu, fd⟩ := et.flows c st ps rfl p.coefs hk
  have bal := (solves_iff ((flModel ε).net geo (flInp dt) o.wk o.cur co) dt o.wk.mats s.good.clean.mats (wired c) o.cur.H
    (flInp dt).Q_in _ x).1 p.solve
  have ar : ∀ i, i < 2 → surfaceAt (flModel ε) geo o.cur i = 1 := by
    intro i hi
    have e : surfaceAt (flModel ε) geo o.cur i = geo.As i + ∑ k ∈ Finset.range 1,
      ((if 0 = i then endArea (o.cur.H i) 1 0 (geo.B_u k) else 0)
        + (if 1 = i then endArea (o.cur.H i) 1 0 (geo.B_d k) else 0)) := rfl
    rw [e, hAs i hi]
    simp [endArea]
  have hx : ∀ i, i < 2 → x i = a + 5 * ε := by
    intro i hi
    have b := (bal i hi).2 rfl
    have e1 := area_eq (wk := o.wk) (cur := o.cur) (co := co) ps i
    rw [ar i hi] at e1
    have e2 : ((flModel ε).net geo (flInp dt) o.wk o.cur co).As i
        + dt * ((flModel ε).net geo (flInp dt) o.wk o.cur co).links.xiSum i = 1 := e1
    have inf : ((flModel ε).net geo (flInp dt) o.wk o.cur co).links.inflow x i = 5 * ε / dt := by
      have e3 : ((flModel ε).net geo (flInp dt) o.wk o.cur co).links.inflow x i
        = ∑ k ∈ Finset.range 1, ((if 1 = i then Qdk ((flModel ε).endRec o.wk co k) ((flModel ε).headCoef geo o.cur k) (x 0) (x 1)
            else 0) - (if 0 = i then Quk ((flModel ε).endRec o.wk co k) ((flModel ε).headCoef geo o.cur k) (x 0) (x 1) else 0)) := rfl
      have fu' : Quk ((flModel ε).endRec o.wk co 0) ((flModel ε).headCoef geo o.cur 0) (x 0) (x 1) = -(5 * ε) / dt :=
        fu.symm.trans tu
      have fd' : Qdk ((flModel ε).endRec o.wk co 0) ((flModel ε).headCoef geo o.cur 0) (x 0) (x 1) = 5 * ε / dt :=
        fd.symm.trans td
      rw [e3, Finset.sum_range_one, fu', fd']
      obtain rfl | rfl : i = 0 ∨ i = 1 := by omega
      · simp; ring
      · simp
    have e4 : ((flModel ε).net geo (flInp dt) o.wk o.cur co).orifices.inflow x i = 0 := Finset.sum_range_zero _
    have e5 : ((flModel ε).net geo (flInp dt) o.wk o.cur co).weirs.inflow x i = 0 := Finset.sum_range_zero _
    have e6 : ((flModel ε).net geo (flInp dt) o.wk o.cur co).pumps.inflow x i = 0 := Finset.sum_range_zero _
    rw [Network.Balanced, inf, e4, e5, e6, s.H i hi] at b
    have e7 : (flInp dt).Q_in i = 0 := rfl
    rw [e7] at b
    generalize ((flModel ε).net geo (flInp dt) o.wk o.cur co).As i = A at b e2
    generalize ((flModel ε).net geo (flInp dt) o.wk o.cur co).links.xiSum i = X at b e2
    have e8 : (A + dt * X) * (x i - a) = 5 * ε := by
      field_simp at b
      linarith
    rw [e2] at e8
    linarith
  have hH : ∀ i, i < 2 → ((flModel ε).advance geo (flInp dt) o.wk o.cur co x).H i = a + 5 * ε := by
    intro i hi
    show min (max (x i) 0) (0 + 10) = _
    rw [hx i hi, max_eq_left (by linarith), min_eq_left (by linarith)]
  -- the channel
  obtain ⟨t', et'⟩ := exact_exists (wk := o.wk) c st ps rfl p.coefs hk ((flModel ε).advance geo (flInp dt) o.wk o.cur co x).H
  obtain ⟨h0, h1, q0, -, -⟩ := sol _ t' et'
  obtain ⟨r0, r1, r2⟩ := et'.reported c st ps p.coefs hk
  obtain ⟨-, r2⟩ := r2 (fun j h1 h2 => by
    have : (flModel ε).ix.nk 0 = 1 := rfl
    omega)
  refine ⟨gn, hH, fun I hI => ?_, (r2 0 Nat.zero_lt_one).trans q0⟩
  obtain rfl | rfl : I = 0 ∨ I = 1 := by omega
  · refine r0.trans ?_
    show max ε (t'.h 0) = ε
    rw [h0, max_eq_left hε.le]
  · refine r1.trans ?_
    show max ε (t'.h 1) = ε
    rw [h1, max_eq_left hε.le]

/-- **C149, refuted.** Nothing is supplied, the tanks are empty and the channel between them is dry
(`min_depth`). Every list of step sizes runs through, and after it both tanks hold `5 ε` for every step made —
however short the steps were. -/
theorem C149_water_from_nothing {ε : ℝ} (hε : 0 < ε) (l : List ℝ) (hl : ∀ dt ∈ l, 0 < dt)
    (hn : 5 * ε * l.length ≤ 1) :
    (∃ o', History (flModel ε) inPlan (l.map fun dt => (true, flInp dt)) (flStart ε) o') ∧
    ∀ o', History (flModel ε) inPlan (l.map fun dt => (true, flInp dt)) (flStart ε) o' →
      o'.cur.H 0 = 5 * ε * l.length ∧ o'.cur.H 1 = 5 * ε * l.length ∧ o'.cur.h 0 = ε ∧ o'.cur.h 1 = ε := by
  refine ⟨?_, fun o' h => ?_⟩
  · obtain ⟨o', h, -⟩ := C105_every_history_succeeds (flSound hε) (l.map fun dt => (true, flInp dt))
      (fun q hq => by
        obtain ⟨dt, hdt, rfl⟩ := List.mem_map.1 hq
        exact flGood ε (hl dt hdt)) (flStart_state ε).good
    exact ⟨o', h⟩
  · have gen : ∀ (l : List ℝ) (o : Obj) (a : ℝ), (∀ dt ∈ l, 0 < dt) → 0 ≤ a → a + 5 * ε * l.length ≤ 1 →
        FlState ε o a → History (flModel ε) inPlan (l.map fun dt => (true, flInp dt)) o o' →
        FlState ε o' (a + 5 * ε * l.length) := by
      intro l
      induction l with
      | nil =>
        intro o a _ _ _ s h
        have : o' = o := h
        subst this
        simpa using s
      | cons dt rest ih =>
        intro o a hl ha hn s h
        obtain ⟨o1, h1, h2⟩ := h
        have e : a + 5 * ε * (dt :: rest).length = a + 5 * ε + 5 * ε * rest.length := by
          rw [List.length_cons]; push_cast; ring
        rw [e] at hn ⊢
        have pos : 0 ≤ 5 * ε * rest.length := by positivity
        exact ih o1 (a + 5 * ε) (fun d hd => hl d (List.mem_cons_of_mem _ hd)) (by linarith) hn
          (fl_call hε (hl dt (by simp)) ha (by linarith) s h1) h2
    have s := gen l (flStart ε) 0 hl le_rfl (by linarith) (flStart_state ε) h
    rw [zero_add] at s
    exact ⟨s.H 0 (by norm_num), s.H 1 (by norm_num), s.h 0 (by norm_num), s.h 1 (by norm_num)⟩

/-- **C149, refuted (how fast).** In any time `T`, however short, the tanks fill to the level of the channel from
nothing: with `min_depth = 1 / (5 n)`, `n` steps of size `T / n` fill them to 1. -/
theorem C149_fills_in_any_time {T : ℝ} (hT : 0 < T) {n : ℕ} (hn : 0 < n) :
    ∃ o', History (flModel (1 / (5 * n))) inPlan ((List.replicate n (T / n)).map fun dt => (true, flInp dt))
        (flStart (1 / (5 * n))) o' ∧ o'.cur.H 0 = 1 ∧ o'.cur.H 1 = 1 := by
  have n0 : (0 : ℝ) < n := by exact_mod_cast hn
  obtain ⟨⟨o', h⟩, all⟩ := C149_water_from_nothing (ε := 1 / (5 * n)) (by positivity) (List.replicate n (T / n))
    (fun d hd => by rw [(List.mem_replicate.1 hd).2]; positivity) (by
      rw [List.length_replicate]
      apply le_of_eq
      field_simp)
  obtain ⟨a, b, -, -⟩ := all o' h
  rw [List.length_replicate] at a b
  refine ⟨o', h, a.trans ?_, b.trans ?_⟩ <;> field_simp

/-- With the default `min_depth = 1e-5`: a thousand steps of a millisecond put 5 cm of water into both tanks. -/
example : ∃ o', History (flModel (1 / 100000)) inPlan ((List.replicate 1000 (1 / 1000)).map fun dt => (true, flInp dt))
    (flStart (1 / 100000)) o' ∧ o'.cur.H 0 = 1 / 20 := by
  obtain ⟨⟨o', h⟩, all⟩ := C149_water_from_nothing (ε := 1 / 100000) (by norm_num) (List.replicate 1000 (1 / 1000))
    (fun d hd => by rw [(List.mem_replicate.1 hd).2]; norm_num) (by rw [List.length_replicate]; norm_num)
  refine ⟨o', h, (all o' h).1.trans ?_⟩
  rw [List.length_replicate]; norm_num

/-- The step of the network which fills itself, as an instance of `C149_dry_ends`. -/
example {dt : ℝ} (hdt : 0 < dt) : ∃ geo co x,
    Pass (flModel (1 / 100)) geo (flInp dt) freshWork (flStart (1 / 100)).cur (flStart (1 / 100)).cur co x ∧
    supplied (flModel (1 / 100)) (flInp dt) < gained (flModel (1 / 100)) geo (flStart (1 / 100)).cur (flStart (1 / 100)).cur
      ((flModel (1 / 100)).advance geo (flInp dt) freshWork (flStart (1 / 100)).cur co x) := by
  have hε : (0 : ℝ) < 1 / 100 := by norm_num
  have s := flStart_state (1 / 100)
  obtain ⟨o', h⟩ := C105_step_succeeds (flSound hε) (flGood (1 / 100) hdt) true s.good
  have s' := fl_call hε hdt le_rfl (by norm_num) s h
  obtain ⟨Ao, co, x, -, p, rfl⟩ := h
  have ps := physical_geoOf (flSound hε) (flGood (1 / 100) hdt) (flStart (1 / 100)).hid Ao s.good.wet
  simp only [if_true] at p
  refine ⟨_, co, x, p, ?_⟩
  have fx : ∀ i, i < 2 → min (max (x i) 0) (0 + 10) = 0 + 5 * (1 / 100 : ℝ) := s'.H
  refine ((C149_dry_ends (flConsistent _) (flTables _) ps s.good.clean p rfl (fun _ _ => rfl) (fun j hj => ?_)
    (fun k hk j h1 h2 => ?_)).2.2 0 Nat.zero_lt_one).1 ?_ ?_
  · have := fx j hj
    show 0 ≤ x j ∧ x j ≤ 0 + 10
    rcases le_total (x j) 0 with h | h
    · rw [max_eq_right h] at this; norm_num at this
    · refine ⟨h, ?_⟩
      rw [max_eq_left h] at this
      by_contra h2
      rw [min_eq_right (by linarith)] at this
      norm_num at this
  · have : (flModel (1 / 100)).ix.nk k = 1 := rfl
    omega
  · have e : surfaceArea (flModel (1 / 100)) ((flModel (1 / 100)).geoOf inPlan (flStart (1 / 100)).hid Ao (flStart (1 / 100)).cur) 0 0
      = 0 * _ / 2 + 10 * 1 / 2 + 0 := rfl
    rw [e]; norm_num
  · rw [(C149_perched_up ps (flConsistent _) p.coefs Nat.zero_lt_one zero_lt_one (Or.inl rfl) hε.le _).1]
    exact hε

/-- One tank of area 1 and depth 10, nothing else. -/
def tankModel : Model :=
  { reModel with N := 0, M := 1, ix := { NK := 0, nk := fun _ => 1, I_1k := fun _ => 0, i_1k := fun _ => 0 }, bc := fun _ => false }

theorem tankConsistent : tankModel.Consistent := by
  refine ⟨⟨fun _ h => ?_, fun k k' h h' hk => ?_, fun k k' h h' hk => ?_⟩, ?_, fun k hk => ?_,
    ?_, ?_, ?_, ?_, ?_, ?_, ?_, ?_⟩ <;> simp [tankModel, reModel] at *

/-- A tank filled to `9` which receives `5` in a step holds `10` afterwards: at least 4 are lost. An instance of
`C149_heads`. -/
example {geo : Geo} {co : Coef ℝ} {x : ℕ → ℝ} {prev : Hyd} (hp : ∀ i, prev.H i = 9) (hA : ∀ i, geo.As i = 1)
    (p : Pass tankModel geo { flInp 1 with Q_in := fun _ => 5 } freshWork prev prev co x) :
    gained tankModel geo prev prev (tankModel.advance geo { flInp 1 with Q_in := fun _ => 5 } freshWork prev co x)
      ≤ supplied tankModel { flInp 1 with Q_in := fun _ => 5 } - 4 := by
  have ps : PhysicalStep tankModel geo { flInp 1 with Q_in := fun _ => 5 } := by
    refine ⟨?_, ?_, ?_, ?_, ?_, ?_, ?_, ?_, ?_, ?_, ?_, ?_, ?_, ?_, ?_, ?_, ?_, ?_, ?_⟩ <;>
      simp [tankModel, reModel, flInp, hA]
    norm_num
  have b := ((solves_iff (tankModel.net geo { flInp 1 with Q_in := fun _ => 5 } freshWork prev co) 1 freshWork.mats
    (freshClean tankModel).mats (wired tankConsistent) prev.H _ _ x).1 p.solve 0 Nat.zero_lt_one).2 rfl
  have hx : x 0 = 14 := by
    have e1 : (tankModel.net geo { flInp 1 with Q_in := fun _ => 5 } freshWork prev co).As 0 = 1 := hA 0
    have e2 : (tankModel.net geo { flInp 1 with Q_in := fun _ => 5 } freshWork prev co).links.xiSum 0 = 0 := Finset.sum_range_zero _
    have e3 : (tankModel.net geo { flInp 1 with Q_in := fun _ => 5 } freshWork prev co).links.inflow x 0 = 0 := Finset.sum_range_zero _
    have e4 : (tankModel.net geo { flInp 1 with Q_in := fun _ => 5 } freshWork prev co).orifices.inflow x 0 = 0 := Finset.sum_range_zero _
    have e5 : (tankModel.net geo { flInp 1 with Q_in := fun _ => 5 } freshWork prev co).weirs.inflow x 0 = 0 := Finset.sum_range_zero _
    have e6 : (tankModel.net geo { flInp 1 with Q_in := fun _ => 5 } freshWork prev co).pumps.inflow x 0 = 0 := Finset.sum_range_zero _
    rw [Network.Balanced, e1, e2, e3, e4, e5, e6, hp 0] at b
    norm_num at b
    linarith
  have h := (C149_heads (s := fun _ => prev) tankConsistent ⟨fun k hk => absurd hk (Nat.not_lt_zero k), fun k hk => absurd hk (Nat.not_lt_zero k)⟩
    ps (freshClean tankModel) p rfl (fun _ _ => rfl) (fun k hk => absurd hk (Nat.not_lt_zero k))
    (fun k hk => absurd hk (Nat.not_lt_zero k))).2 (fun j hj => by
      obtain rfl : j = 0 := Nat.lt_one_iff.1 hj
      rw [hx]; norm_num [tankModel, reModel])
  refine h.trans (sub_le_sub_left ?_ _)
  have e : ∑ j ∈ Finset.range tankModel.M, surfaceAt tankModel geo prev j * max (x j - (tankModel.z_inv j + tankModel.max_depth j)) 0
      = ∑ j ∈ Finset.range 1, (geo.As j + 0) * max (x j - (0 + 10)) 0 := rfl
  rw [e, Finset.sum_range_one, hx, hA]
  norm_num

end

end Pipedream.Step
