import Verif.IterateModel
import Verif.InitialProps

/-!
# C160: what the iterations of a step are aimed at

A pass evaluates the coefficients of its equations (friction, advection, geometry, discharge of controls) at the
current state. Iterating the pass with the saved state kept (`num_iter > 1`) has as its only fixed points the
solutions of the fully implicit equations, in which everything is evaluated at the new state, and in which the
reported flows through controls balance. The test by which the loop stops looks at heads only, and at first at
the change over the whole step: a network whose heads do not move is not iterated at all.
-/

namespace Pipedream.Step

open Pipedream.Sweep Pipedream.Link Pipedream.Superlink Pipedream.Control Pipedream.Network
open Pipedream.Geometry Pipedream.Interp

variable {m : Model} {geo : Geo} {inp : Inputs} {wk : Work} {prev cur : Hyd} {co : Coef ℝ} {x : ℕ → ℝ}

noncomputable section

/-! ### Specification -/

/-- `s` solves the fully implicit equations of a step from `prev`: geometry `geo` and all coefficients are those
of `s` itself. -/
structure Implicit (m : Model) (geo : Geo) (inp : Inputs) (prev s : Hyd) : Prop where
  fixed : ∀ i, i < m.M → m.bc i = true → ∀ f, inp.H_bc = some f → f i = s.H i
  balance : ∀ i, i < m.M → m.bc i = false →
    surfaceAt m geo s i * ((s.H i - prev.H i) / inp.dt)
      = inp.Q_in i + netInto m.ix.NK m.Ju m.Jd s.Qu s.Qd i + netInto m.n_o m.Juo m.Jdo s.Qo s.Qo i
        + netInto m.n_w m.Juw m.Jdw s.Qw s.Qw i + netInto m.n_p m.Jup m.Jdp s.Qp s.Qp i
  momentum : ∀ k, k < m.ix.NK → ∀ j, j < m.ix.nk k → MomentumEq m geo inp prev s s k j
  continuity : ∀ k, k < m.ix.NK → ∀ j, j ≤ m.ix.nk k → ContinuityEq m geo inp prev s k j
  up : ∀ k, k < m.ix.NK → s.h (m.ix.I_1k k)
    = (if m.z_uk k ≤ s.H (m.Ju k) then s.H (m.Ju k) - m.z_uk k else 0)
      - |s.Qu k| * m.C_uk k / (2 * m.g * geo.A_u k ^ 2) * s.Qu k
  down : ∀ k, k < m.ix.NK → s.h (m.ix.I_1k k + m.ix.nk k)
    = (if m.z_dk k ≤ s.H (m.Jd k) then s.H (m.Jd k) - m.z_dk k else 0)
      + |s.Qd k| * m.C_dk k / (2 * m.g * geo.A_d k ^ 2) * s.Qd k
  orifices : ∀ o, o < m.n_o → s.Qo o = orificeFlow m.g (geo.Ao o) (m.Co o) (s.H (m.Juo o)) (s.H (m.Jdo o))
    (inp.u_o o) (geo.V (m.Juo o)) (geo.V (m.Jdo o)) inp.dt (m.orifice o)
  weirs : ∀ w, w < m.n_w → s.Qw w = weirFlow (s.H (m.Juw w)) (s.H (m.Jdw w)) (inp.u_w w) (m.weir w)
  pumps : ∀ p, p < m.n_p → s.Qp p = pumpFlow (s.H (m.Jup p)) (s.H (m.Jdp p)) (inp.u_p p) (m.pump p)

/-! ### Lemmas -/

/-- With the heads of an implicit solution the end relations of a pass return its end flows and depths. -/
theorem implicit_ends (c : m.Consistent) (ps : PhysicalStep m geo inp) (he : m.end_method = .b)
    (pc : ProperControls m geo inp cur) (sd : Implicit m geo inp prev cur)
    (hc : StepCoefs m.g m.N (m.linkIn geo inp prev cur) (m.nodeIn geo inp prev) m.nix co)
    {k : ℕ} (hk : k < m.ix.NK)
    (S : SaintVenant m.g (co.slice (m.ix.i_1k k) (m.ix.I_1k k)) (m.ix.nk k)
      (fun j => cur.Q (m.ix.i_1k k + j)) (fun j => cur.h (m.ix.I_1k k + j)) (cur.Qu k) (cur.Qd k)) :
    Quk (m.endRec wk co k) (m.headCoef geo cur k) (cur.H (m.Ju k)) (cur.H (m.Jd k)) = cur.Qu k ∧
    Qdk (m.endRec wk co k) (m.headCoef geo cur k) (cur.H (m.Ju k)) (cur.H (m.Jd k)) = cur.Qd k ∧
    huk (m.endRec wk co k) (m.headCoef geo cur k) (cur.H (m.Ju k)) (cur.H (m.Jd k)) = cur.h (m.ix.I_1k k) ∧
    hdk (m.endRec wk co k) (m.headCoef geo cur k) (cur.H (m.Ju k)) (cur.H (m.Jd k))
      = cur.h (m.ix.I_1k k + m.ix.nk k) := by
  have n1 := c.layout.pos k hk
  have ph := physical c ps hc hk
  have F := sweptFwd_rel m.g co m.ix wk.f c.layout hk
  have B := sweptBwd_rel m.g co m.ix wk.b c.layout hk
  have fs := fwd_sound F (physical_fwdPivots ph F) S (m.ix.nk k - 1) (by omega)
  have bs := bwd_sound B (physical_bwdPivots ph B) S 0 n1
  have c0 := S.continuity 0 (by omega)
  have cn := S.continuity (m.ix.nk k) le_rfl
  rw [qIn_zero, qOut_lt _ _ n1] at c0
  rw [qOut_end] at cn
  have en : m.ix.nk k - 1 + 1 = m.ix.nk k := by omega
  have qn : qIn (fun j => cur.Q (m.ix.i_1k k + j)) (cur.Qu k) (m.ix.nk k)
      = cur.Q (m.ix.i_1k k + (m.ix.nk k - 1)) := by
    rw [qIn, if_neg (by omega)]
  rw [qn] at cn
  simp only [en, add_zero] at fs bs c0 cn
  have D0 : DkStar (m.endRec wk co k) (m.headCoef geo cur k) ≠ 0 :=
    ne_of_gt (lt_of_lt_of_le zero_lt_one (DkStar_ge_one (step_endSigns c ps hc hk) (step_headSigns ps hk)))
  have g0 := ps.g_pos
  have au := pc.Au k hk
  have ad := pc.Ad k hk
  have e1 : (2 * geo.A_u k ^ 2 * m.g) ≠ 0 := by positivity
  have e2 : (2 * geo.A_d k ^ 2 * m.g) ≠ 0 := by positivity
  have R : EndRelations (m.endRec wk co k) (m.headCoef geo cur k) (cur.H (m.Ju k)) (cur.H (m.Jd k))
      (cur.Qu k) (cur.Qd k) (cur.h (m.ix.I_1k k)) (cur.h (m.ix.I_1k k + m.ix.nk k)) := by
    refine ⟨?_, ?_, ?_, ?_⟩
    · unfold Model.endRec Superlink.endRec
      rw [he]
      simp only [add_zero, Model.bwd]; linear_combination bs - c0
    · unfold Model.endRec Superlink.endRec
      rw [he]
      simp only [Model.fwd]; linear_combination fs + cn
    · rw [sd.up k hk]
      simp only [Model.headCoef, headCoefZ, gammaUk, safeDivide_of_ne _ e1, theta, ge_iff_le]
      split_ifs <;> ring
    · rw [sd.down k hk]
      simp only [Model.headCoef, headCoefZ, gammaDk, safeDivide_of_ne _ e2, theta, ge_iff_le]
      split_ifs <;> ring
  obtain ⟨a1, a2, a3, a4⟩ := C04_end_relations_unique _ _ _ _ _ _ _ _ D0 R
  exact ⟨a1.symm, a2.symm, a3.symm, a4.symm⟩

/-- The balance of a superjunction in the assembled equations, at the state the coefficients were evaluated at. -/
theorem implicit_balanced_iff (ps : PhysicalStep m geo inp) (pc : ProperControls m geo inp cur)
    (ho : ∀ o, o < m.n_o → cur.Qo o = orificeFlow m.g (geo.Ao o) (m.Co o) (cur.H (m.Juo o)) (cur.H (m.Jdo o))
      (inp.u_o o) (geo.V (m.Juo o)) (geo.V (m.Jdo o)) inp.dt (m.orifice o))
    (hw : ∀ w, w < m.n_w → cur.Qw w = weirFlow (cur.H (m.Juw w)) (cur.H (m.Jdw w)) (inp.u_w w) (m.weir w))
    (hp : ∀ p, p < m.n_p → cur.Qp p = pumpFlow (cur.H (m.Jup p)) (cur.H (m.Jdp p)) (inp.u_p p) (m.pump p))
    (ends : ∀ k, k < m.ix.NK →
      Quk (m.endRec wk co k) (m.headCoef geo cur k) (cur.H (m.Ju k)) (cur.H (m.Jd k)) = cur.Qu k ∧
      Qdk (m.endRec wk co k) (m.headCoef geo cur k) (cur.H (m.Ju k)) (cur.H (m.Jd k)) = cur.Qd k)
    {Hprev : ℕ → ℝ} {i : ℕ} :
    Network.Balanced (m.net geo inp wk cur co) inp.dt Hprev inp.Q_in cur.H i ↔
    surfaceAt m geo cur i * ((cur.H i - Hprev i) / inp.dt)
      = inp.Q_in i + netInto m.ix.NK m.Ju m.Jd cur.Qu cur.Qd i + netInto m.n_o m.Juo m.Jdo cur.Qo cur.Qo i
        + netInto m.n_w m.Juw m.Jdw cur.Qw cur.Qw i + netInto m.n_p m.Jup m.Jdp cur.Qp cur.Qp i := by
  obtain ⟨co', cw', cp'⟩ := steady_controls (wk := wk) (co := co) ps pc ho hw hp
  have l : (m.net geo inp wk cur co).links.inflow cur.H i = netInto m.ix.NK m.Ju m.Jd cur.Qu cur.Qd i := by
    unfold Links.inflow netInto
    apply Finset.sum_congr rfl
    intro k hk
    obtain ⟨e1, e2⟩ := ends k (Finset.mem_range.mp hk)
    have h1 : (m.net geo inp wk cur co).links.Qu cur.H k = cur.Qu k := e1
    have h2 : (m.net geo inp wk cur co).links.Qd cur.H k = cur.Qd k := e2
    rw [h1, h2]; rfl
  have dt0 := ps.dt_pos.ne'
  have ar : ((m.net geo inp wk cur co).As i / inp.dt + (m.net geo inp wk cur co).links.xiSum i) * (cur.H i - Hprev i)
      = surfaceAt m geo cur i * ((cur.H i - Hprev i) / inp.dt) := by
    rw [← area_eq (wk := wk) (co := co) ps i, Network.area]
    field_simp
  unfold Network.Balanced
  rw [ar, l, ctrls_inflow_eq _ _ _ co', ctrls_inflow_eq _ _ _ cw', ctrls_inflow_eq _ _ _ cp']
  rfl

/-! ### C160 -/

/-- **C160 (solutions are reproduced).** A pass from a solution of the implicit equations returns it. -/
theorem C160_solution_kept (c : m.Consistent) (st : StartTables m) (ps : PhysicalStep m geo inp)
    (cw : CleanWork m wk.mats) (he : m.end_method = .b) (pc : ProperControls m geo inp cur)
    (ins : Inside m cur) (sd : Implicit m geo inp prev cur) (p : Pass m geo inp wk prev cur co x) :
    SameState m cur (m.advance geo inp wk cur co x) := by
  have sv : ∀ k, k < m.ix.NK → SaintVenant m.g (co.slice (m.ix.i_1k k) (m.ix.I_1k k)) (m.ix.nk k)
      (fun j => cur.Q (m.ix.i_1k k + j)) (fun j => cur.h (m.ix.I_1k k + j)) (cur.Qu k) (cur.Qd k) := fun k hk =>
    (saintVenant_iff c st ps p.coefs cur hk).2 ⟨sd.momentum k hk, sd.continuity k hk⟩
  have ends := fun {k : ℕ} (hk : k < m.ix.NK) => implicit_ends (wk := wk) c ps he pc sd p.coefs hk (sv k hk)
  have sol : Solves m.M (m.lhs geo inp wk cur co) (m.rhs geo inp wk prev cur co) cur.H := by
    refine (solves_iff (m.net geo inp wk cur co) inp.dt wk.mats cw.mats (wired c) prev.H inp.Q_in
      (inp.H_bc.getD cur.H) _).mpr fun i hi => ⟨fun hb => ?_, fun hb => ?_⟩
    · cases hbc : inp.H_bc with
      | none => simp
      | some f => simp [sd.fixed i hi hb f hbc]
    · exact (implicit_balanced_iff ps pc sd.orifices sd.weirs sd.pumps
        (fun k hk => ⟨(ends hk).1, (ends hk).2.1⟩)).2 (sd.balance i hi hb)
  have hx : ∀ i, i < m.M → x i = cur.H i := (C06_step c ps cw p.coefs _).2 x cur.H p.solve sol
  have hH : ∀ i, i < m.M → (m.advance geo inp wk cur co x).H i = cur.H i := by
    intro i hi
    obtain ⟨a, b⟩ := ins.heads i hi
    simp only [Model.advance, clipHead, hx i hi, max_eq_left a.le, min_eq_left b.le]
  have pipes : ∀ k, k < m.ix.NK →
      (∀ j, j ≤ m.ix.nk k → (m.advance geo inp wk cur co x).h (m.ix.I_1k k + j) = cur.h (m.ix.I_1k k + j)) ∧
      (∀ j, j < m.ix.nk k → (m.advance geo inp wk cur co x).Q (m.ix.i_1k k + j) = cur.Q (m.ix.i_1k k + j)) := by
    intro k hk
    obtain ⟨-, -, e3, e4⟩ := ends hk
    have hu : endDepthU m geo wk cur co (m.advance geo inp wk cur co x).H k = cur.h (m.ix.I_1k k) := by
      rw [endDepthU, hH _ (c.Ju k hk), hH _ (c.Jd k hk), e3]
    have hd : endDepthD m geo wk cur co (m.advance geo inp wk cur co x).H k
        = cur.h (m.ix.I_1k k + m.ix.nk k) := by
      rw [endDepthD, hH _ (c.Ju k hk), hH _ (c.Jd k hk), e4]
    have d0 := ins.depths k hk 0 (by omega)
    rw [add_zero] at d0
    exact (C01_physical m.g co m.ix m.min_depth m.max_depth_k
      (endDepthU m geo wk cur co (m.advance geo inp wk cur co x).H)
      (endDepthD m geo wk cur co (m.advance geo inp wk cur co x).H) m.back wk.f wk.b ⟨cur.h, cur.Q⟩ c.layout hk
      (by rw [hu]; exact d0.le) (by rw [hd]; exact (ins.depths k hk _ le_rfl).le) (ins.room k hk)
      (physical c ps p.coefs hk)).2.2 (fun j => cur.Q (m.ix.i_1k k + j)) (fun j => cur.h (m.ix.I_1k k + j))
      (cur.Qu k) (cur.Qd k) (sv k hk) (by rw [hu, add_zero]) (by rw [hd])
      (fun j h1 h2 => ⟨(ins.depths k hk j h2.le).le, (ins.inner k hk j h1 h2).le⟩)
  refine ⟨hH, fun k hk => (pipes k hk).1, fun k hk => (pipes k hk).2, fun k hk => ?_, fun k hk => ?_,
    fun o ho => ?_, fun w hw => ?_, fun q hq => ?_⟩
  · show Quk _ _ ((m.advance geo inp wk cur co x).H (m.Ju k)) ((m.advance geo inp wk cur co x).H (m.Jd k)) = _
    rw [hH _ (c.Ju k hk), hH _ (c.Jd k hk)]; exact (ends hk).1
  · show Qdk _ _ ((m.advance geo inp wk cur co x).H (m.Ju k)) ((m.advance geo inp wk cur co x).H (m.Jd k)) = _
    rw [hH _ (c.Ju k hk), hH _ (c.Jd k hk)]; exact (ends hk).2.1
  · show orificeFlow _ _ _ ((m.advance geo inp wk cur co x).H (m.Juo o))
      ((m.advance geo inp wk cur co x).H (m.Jdo o)) _ _ _ _ _ = _
    rw [hH _ (c.Juo o ho), hH _ (c.Jdo o ho)]
    exact (sd.orifices o ho).symm
  · show weirFlow ((m.advance geo inp wk cur co x).H (m.Juw w))
      ((m.advance geo inp wk cur co x).H (m.Jdw w)) _ _ = _
    rw [hH _ (c.Juw w hw), hH _ (c.Jdw w hw)]
    exact (sd.weirs w hw).symm
  · show pumpFlow ((m.advance geo inp wk cur co x).H (m.Jup q))
      ((m.advance geo inp wk cur co x).H (m.Jdp q)) _ _ = _
    rw [hH _ (c.Jup q hq), hH _ (c.Jdp q hq)]
    exact (sd.pumps q hq).symm

/-- **C160 (only solutions are reproduced).** -/
theorem C160_kept_solution (c : m.Consistent) (st : StartTables m) (ps : PhysicalStep m geo inp)
    (cw : CleanWork m wk.mats) (he : m.end_method = .b) (pc : ProperControls m geo inp cur)
    (ins : Inside m cur) (p : Pass m geo inp wk prev cur co x)
    (rep : SameState m cur (m.advance geo inp wk cur co x)) : Implicit m geo inp prev cur := by
  have uc := unclipped_of_inside c (ins.congr rep)
  set next := m.advance geo inp wk cur co x with hnext
  have ho : ∀ o, o < m.n_o → cur.Qo o = orificeFlow m.g (geo.Ao o) (m.Co o) (cur.H (m.Juo o)) (cur.H (m.Jdo o))
      (inp.u_o o) (geo.V (m.Juo o)) (geo.V (m.Jdo o)) inp.dt (m.orifice o) := by
    intro o h
    rw [← rep.Qo o h, ← rep.H _ (c.Juo o h), ← rep.H _ (c.Jdo o h)]; rfl
  have hw : ∀ w, w < m.n_w → cur.Qw w = weirFlow (cur.H (m.Juw w)) (cur.H (m.Jdw w)) (inp.u_w w) (m.weir w) := by
    intro o h
    rw [← rep.Qw o h, ← rep.H _ (c.Juw o h), ← rep.H _ (c.Jdw o h)]; rfl
  have hp : ∀ p, p < m.n_p → cur.Qp p = pumpFlow (cur.H (m.Jup p)) (cur.H (m.Jdp p)) (inp.u_p p) (m.pump p) := by
    intro o h
    rw [← rep.Qp o h, ← rep.H _ (c.Jup o h), ← rep.H _ (c.Jdp o h)]; rfl
  have ends : ∀ k, k < m.ix.NK →
      Quk (m.endRec wk co k) (m.headCoef geo cur k) (cur.H (m.Ju k)) (cur.H (m.Jd k)) = cur.Qu k ∧
      Qdk (m.endRec wk co k) (m.headCoef geo cur k) (cur.H (m.Ju k)) (cur.H (m.Jd k)) = cur.Qd k := by
    intro k hk
    rw [← rep.Qu k hk, ← rep.Qd k hk, ← rep.H _ (c.Ju k hk), ← rep.H _ (c.Jd k hk)]
    exact ⟨rfl, rfl⟩
  have ed := fun {k : ℕ} (hk : k < m.ix.NK) =>
    C04_end_depths (wk := wk) (cur := cur) (co := co) (x := x) ps (pc.Au k hk) (pc.Ad k hk)
  have er := fun {k : ℕ} (hk : k < m.ix.NK) => C04_reported_end_depths c uc hk
  have eqs := fun {k : ℕ} (hk : k < m.ix.NK) => C01_momentum_and_continuity c st ps p he uc hk
  rw [← hnext] at ed er eqs
  refine ⟨fun i hi hb f hf => ?_, fun i hi hb => ?_, fun k hk j hj => ?_, fun k hk j hj => ?_, fun k hk => ?_,
    fun k hk => ?_, ho, hw, hp⟩
  · have h := C08_step c cw p i hi hb
    rw [← hnext, rep.H i hi, hf] at h
    obtain ⟨a, b⟩ := ins.heads i hi
    simp only [Option.getD_some] at h
    rw [h]
    rw [h] at a b
    rcases le_total (f i) (m.z_inv i) with h1 | h1
    · rw [max_eq_right h1] at a; exact absurd a (not_lt.mpr (min_le_left _ _))
    · rw [max_eq_left h1] at a b ⊢
      rcases le_total (f i) (m.z_inv i + m.max_depth i) with h2 | h2
      · exact (min_eq_left h2).symm
      · rw [min_eq_right h2] at b; exact absurd b (lt_irrefl _)
  · have e : ∀ j, j < m.M → x j = cur.H j := by
      intro j hj
      rw [← rep.H j hj, hnext]
      simp only [Model.advance, clipHead]
      obtain ⟨a, b⟩ := uc.heads j hj
      rw [max_eq_left a, min_eq_left b]
    have h' : Network.Balanced (m.net geo inp wk cur co) inp.dt prev.H inp.Q_in cur.H i := by
      refine ((solves_iff (m.net geo inp wk cur co) inp.dt wk.mats cw.mats (wired c) prev.H inp.Q_in
        (inp.H_bc.getD cur.H) cur.H).mp ?_ i hi).2 hb
      intro j hj
      refine Eq.trans ?_ (p.solve j hj)
      apply Finset.sum_congr rfl
      intro l hl
      rw [← e l (Finset.mem_range.mp hl)]
      rfl
    exact (implicit_balanced_iff ps pc ho hw hp ends).1 h'
  · have := (eqs hk).1 j hj
    simp only [MomentumEq] at this ⊢
    have h1 := rep.h k hk (j + 1) hj
    rw [show m.ix.I_1k k + (j + 1) = m.ix.I_1k k + j + 1 by omega] at h1
    rw [rep.Q k hk j hj, rep.arriving hk hj.le, rep.leaving hk hj, rep.h k hk j hj.le, h1] at this
    exact this
  · have := (eqs hk).2 j hj
    simp only [ContinuityEq] at this ⊢
    rw [rep.h k hk j hj, rep.arriving hk hj, rep.leaving hk hj] at this
    exact this
  · have h0 := rep.h k hk 0 (by omega)
    rw [add_zero] at h0
    rw [← h0, (er hk).1, (ed hk).1, rep.H _ (c.Ju k hk), rep.Qu k hk]
  · rw [← rep.h k hk _ le_rfl, (er hk).2, (ed hk).2, rep.H _ (c.Jd k hk), rep.Qd k hk]

/-- **C160.** The states which a pass of the iteration reproduces are exactly the solutions of the fully implicit
equations of the step. -/
theorem C160_fixed_point_iff (c : m.Consistent) (st : StartTables m) (ps : PhysicalStep m geo inp)
    (cw : CleanWork m wk.mats) (he : m.end_method = .b) (pc : ProperControls m geo inp cur)
    (ins : Inside m cur) (p : Pass m geo inp wk prev cur co x) :
    SameState m cur (m.advance geo inp wk cur co x) ↔ Implicit m geo inp prev cur :=
  ⟨C160_kept_solution c st ps cw he pc ins p, fun sd => C160_solution_kept c st ps cw he pc ins sd p⟩

/-- With `prev = s` these are the steady states of C100. -/
theorem Implicit.steady_iff (s : Hyd) : Implicit m geo inp s s ↔ Steady m geo inp s := by
  constructor
  · intro h
    refine ⟨h.fixed, fun i hi hb => ?_, fun k hk j hj => ?_, fun k hk j hj => ?_, h.up, h.down, h.orifices, h.weirs,
      h.pumps⟩
    · have := h.balance i hi hb
      rw [sub_self, zero_div, mul_zero] at this
      exact this.symm
    · have := h.momentum k hk j hj
      simp only [MomentumEq] at this
      rw [sub_self, zero_div, mul_zero, zero_add] at this
      exact this
    · have := h.continuity k hk j hj
      simp only [ContinuityEq] at this
      rw [sub_self, zero_div, mul_zero] at this
      linarith
  · intro h
    refine ⟨h.fixed, fun i hi hb => ?_, fun k hk j hj => ?_, fun k hk j hj => ?_, h.up, h.down, h.orifices, h.weirs,
      h.pumps⟩
    · rw [sub_self, zero_div, mul_zero]
      exact (h.balance i hi hb).symm
    · simp only [MomentumEq]
      rw [sub_self, zero_div, mul_zero, zero_add]
      exact h.momentum k hk j hj
    · have := h.continuity k hk j hj
      simp only [ContinuityEq]
      rw [sub_self, zero_div, mul_zero]
      linarith

/-! ### The loop -/

/-- **C160 (what a step returns).** A step returns either the result of the first pass, or that of a last pass
made from the state before it with the same saved state. -/
theorem C160_last_pass {P : Plan} {tol : ℝ} {n : ℕ} : ∀ {Hn : ℕ → ℝ} {o o' : Obj}, 0 < n →
    IterLoop m P tol inp n Hn o o' →
    ∃ a, a.saved = o.saved ∧ Calls1 m P false inp a o' := by
  induction n with
  | zero => intro _ _ _ h; omega
  | succ n ih =>
    rintro Hn o o' - ⟨o1, c1, ⟨-, rfl⟩ | ⟨-, h⟩⟩
    · exact ⟨o, rfl, c1⟩
    · have sv : o1.saved = o.saved := by
        obtain ⟨Ao, co, x, -, -, rfl⟩ := c1; rfl
      rcases Nat.eq_zero_or_pos n with rfl | hn
      · change o' = o1 at h
        subst h
        exact ⟨o, rfl, c1⟩
      · obtain ⟨a, ha, c⟩ := ih hn h
        exact ⟨a, ha.trans sv, c⟩

/-- **C160 (converged steps).** If the last pass of an object's step changes nothing, the result solves the
implicit equations of the step. -/
theorem C160_converged {P : Plan} (s : Sound m P) (st : StartTables m) (g : GoodInputs m P inp)
    (he : m.end_method = .b) {a o' : Obj} (go : GoodObj m a) (h : Calls1 m P false inp a o')
    (pc : ∀ Ao, ProperControls m (m.geoOf P a.hid Ao a.cur) inp a.cur) (ins : Inside m a.cur) :
    ∃ Ao, (∀ i, i < m.n_o → orificeArea (a.hid.Ao i) (P.oShape i) (P.oGP i) (m.orificeDepth a.cur i) (inp.u_o i)
        = .ok (Ao i)) ∧
      (SameState m a.cur o'.cur ↔ Implicit m (m.geoOf P a.hid Ao a.cur) inp a.saved a.cur) := by
  obtain ⟨Ao, co, x, hA, p, rfl⟩ := h
  exact ⟨Ao, hA, C160_fixed_point_iff s.cons st (physical_geoOf s g a.hid Ao go.wet) go.clean he (pc Ao) ins p⟩

/-- **C160 (no iteration where heads do not move).** If a first pass moves no head by `head_tol` or more, the
step returns its result, whatever `num_iter`. -/
theorem C160_not_iterated {P : Plan} {numIter : ℕ} {tol : ℝ} {o o' : Obj}
    (still : ∀ o1, Calls1 m P true inp o o1 → HeadsClose m tol o1.cur.H o.cur.H) :
    StepIter m P numIter tol inp o o' ↔ Calls1 m P true inp o o' := by
  have sv : ∀ o1, Calls1 m P true inp o o1 → o1.saved = o.cur := by
    rintro o1 ⟨Ao, co, x, -, -, rfl⟩; rfl
  constructor
  · rintro ⟨o1, c1, ⟨-, rfl⟩ | ⟨no, -⟩⟩
    · exact c1
    · exact absurd (Or.inr (by rw [sv o1 c1]; exact still o1 c1)) no
  · intro c1
    exact ⟨o', c1, .inl ⟨.inr (by rw [sv o' c1]; exact still o' c1), rfl⟩⟩

/-- **C160 (fixed heads).** In a network all of whose heads are fixed at their values no step iterates. -/
theorem C160_fixed_heads {P : Plan} {numIter : ℕ} {tol : ℝ} (ht : 0 < tol) {o o' : Obj} (c : m.Consistent)
    (go : GoodObj m o) (hb : ∀ i, i < m.M → m.bc i = true) (hn : inp.H_bc = none)
    (ins : ∀ i, i < m.M → m.z_inv i ≤ o.cur.H i ∧ o.cur.H i ≤ m.z_inv i + m.max_depth i) :
    StepIter m P numIter tol inp o o' ↔ Calls1 m P true inp o o' := by
  refine C160_not_iterated fun o1 c1 i hi => ?_
  obtain ⟨Ao, co, x, -, p, rfl⟩ := c1
  have h := C08_step c go.clean p i hi (hb i hi)
  rw [hn] at h
  obtain ⟨a, b⟩ := ins i hi
  simp only [Option.getD_none, max_eq_left a, min_eq_left b] at h
  show |(m.advance _ inp o.wk o.cur co x).H i - o.cur.H i| < tol
  rw [h, sub_self, abs_zero]
  exact ht

end

/-! ### A channel between two lakes -/

/-- Water at rest in a channel, 1.5 m deep at one end and 1 m at the other. -/
noncomputable def lakeGiven : Given :=
  ⟨fun i => if i = 0 then 3 / 2 else 1, fun i => if i = 0 then 3 / 2 else 1, fun _ => 0, fun _ => 0⟩

noncomputable def lakeObj : Obj :=
  ⟨(inModel true).start lakeGiven, (inModel true).start lakeGiven, freshWork, Hidden.fresh (fun _ => 0)⟩

/-- A second, with nothing coming in and the heads kept. -/
noncomputable def lakeInp : Inputs := { reInp 1 with H_bc := none }

theorem lakeGood : GoodInputs (inModel true) inPlan lakeInp :=
  ⟨(reGood 1).dt_pos, fun p hp => by simp [inModel, reModel] at hp,
    fun p hp => by simp [inModel, reModel] at hp⟩

theorem lakeWet (i : ℕ) : 1 ≤ lakeGiven.hJ i := by
  simp only [lakeGiven]; split_ifs <;> norm_num

theorem lakeGoodObj : GoodObj (inModel true) lakeObj :=
  ⟨freshClean _, fun I => le_trans (by norm_num [inModel, reModel]) (lakeWet I)⟩

theorem lakeHeads : lakeObj.cur.H 0 = 3 / 2 ∧ lakeObj.cur.H 1 = 1 := by
  constructor <;> norm_num [lakeObj, Model.start, lakeGiven, inModel, reModel]

/-- The step of the channel between the lakes is one pass. -/
theorem lake_iff {numIter : ℕ} {tol : ℝ} (ht : 0 < tol) {o' : Obj} :
    StepIter (inModel true) inPlan numIter tol lakeInp lakeObj o' ↔
      Calls1 (inModel true) inPlan true lakeInp lakeObj o' := by
  refine C160_fixed_heads ht (inConsistent true) lakeGoodObj (fun _ _ => rfl) rfl fun i hi => ?_
  have z1 : (inModel true).z_inv i = 0 := rfl
  have z2 : (inModel true).max_depth i = 10 := rfl
  change i < 2 at hi
  rw [z1, z2]
  obtain rfl | rfl : i = 0 ∨ i = 1 := by omega
  · rw [lakeHeads.1]; norm_num
  · rw [lakeHeads.2]; norm_num

/-- The first pass: depths stay, the flow is the same everywhere and is that of a channel without friction. -/
theorem lake_pass {o' : Obj} (h : Calls1 (inModel true) inPlan true lakeInp lakeObj o') :
    o'.cur.h 0 = 3 / 2 ∧ o'.cur.h 1 = 1 ∧ o'.cur.Q 0 = 9.81 / 16 ∧ o'.cur.Qu 0 = o'.cur.Q 0 ∧
      o'.cur.Qd 0 = o'.cur.Q 0 := by
  obtain ⟨Ao, co, x, -, p, rfl⟩ := h
  have fx : ∀ i, i < 2 →
      ((inModel true).advance ((inModel true).geoOf inPlan lakeObj.hid Ao lakeObj.cur) lakeInp lakeObj.wk lakeObj.cur
        co x).H i = lakeObj.cur.H i ∧ x i = lakeObj.cur.H i := by
    intro i hi
    have h := C08_step (inConsistent true) lakeGoodObj.clean p i hi rfl
    have z1 : (inModel true).z_inv i = 0 := rfl
    have z2 : (inModel true).max_depth i = 10 := rfl
    have lh : 1 ≤ lakeObj.cur.H i ∧ lakeObj.cur.H i ≤ 3 / 2 := by
      obtain rfl | rfl : i = 0 ∨ i = 1 := by omega
      · rw [lakeHeads.1]; norm_num
      · rw [lakeHeads.2]; norm_num
    have hb : lakeInp.H_bc.getD lakeObj.cur.H = lakeObj.cur.H := rfl
    rw [z1, z2, hb, max_eq_left (by linarith), min_eq_left (by linarith)] at h
    refine ⟨h, ?_⟩
    have h' := h
    simp only [Model.advance, clipHead, z1, z2] at h'
    rcases le_total (x i) 0 with h1 | h1
    · rw [max_eq_right h1, min_eq_left (by norm_num)] at h'; linarith
    · rw [max_eq_left h1] at h'
      rcases le_total (x i) (0 + 10) with h2 | h2
      · rwa [min_eq_left h2] at h'
      · rw [min_eq_right h2] at h'; linarith
  have ps := physical_geoOf (inSound true) lakeGood lakeObj.hid Ao lakeGoodObj.wet
  simp only [if_true] at p ⊢
  have wet := lakeGoodObj.wet
  have hs := (inSound true).sec 0 (by norm_num [inModel, reModel])
  have au : 0 < ((inModel true).geoOf inPlan lakeObj.hid Ao lakeObj.cur).A_u 0 := by
    show 0 < upTo 1 _ 0
    rw [upTo_of_lt _ (by norm_num)]
    refine Section.A_pos (md := (inModel true).min_depth) (by norm_num [inModel, reModel]) hs (wet 0) ?_
    have e : (inModel true).Ju 0 = 0 := rfl
    rw [e, lakeHeads.1]
    norm_num [lakeObj, Hidden.fresh, inModel, reModel]
  have ad : 0 < ((inModel true).geoOf inPlan lakeObj.hid Ao lakeObj.cur).A_d 0 := by
    show 0 < upTo 1 _ 0
    rw [upTo_of_lt _ (by norm_num)]
    refine Section.A_pos (md := (inModel true).min_depth) (by norm_num [inModel, reModel]) hs (wet _) ?_
    have e : (inModel true).Jd 0 = 1 := rfl
    rw [e, lakeHeads.2]
    norm_num [lakeObj, Hidden.fresh, inModel, reModel]
  have gA : ((inModel true).geoOf inPlan lakeObj.hid Ao lakeObj.cur).A 0 = 5 / 4 := by
    norm_num [Model.geoOf, inPlan, rePlan, Section.A, Geometry.area, rectA, depth, Geometry.wet, lakeObj, Model.start, lakeGiven]
  have gs : ((inModel true).geoOf inPlan lakeObj.hid Ao lakeObj.cur).sigma 0 = 1 := rfl
  generalize hgeo : (inModel true).geoOf inPlan lakeObj.hid Ao lakeObj.cur = geo at p ps au ad fx gA gs ⊢
  have hk : 0 < (inModel true).ix.NK := by norm_num [inModel, reModel]
  set nx := (inModel true).advance geo lakeInp lakeObj.wk lakeObj.cur co x with hnx
  have ends := C04_end_depths (wk := lakeObj.wk) (cur := lakeObj.cur) (co := co) (x := x) ps au ad
  rw [← hnx] at ends
  have j0 : (inModel true).Ju 0 = 0 := rfl
  have j1 : (inModel true).Jd 0 = 1 := rfl
  have zu : (inModel true).z_uk 0 = 0 := rfl
  have zd : (inModel true).z_dk 0 = 0 := rfl
  have q0 : lakeObj.cur.Qu 0 = 0 := rfl
  have q1 : lakeObj.cur.Qd 0 = 0 := rfl
  simp only [j0, j1, zu, zd, q0, q1, (fx 0 (by norm_num)).1, (fx 1 (by norm_num)).1, lakeHeads.1, lakeHeads.2] at ends
  norm_num at ends
  have uc : Unclipped (inModel true) x nx (endDepthU (inModel true) geo lakeObj.wk lakeObj.cur co nx.H)
      (endDepthD (inModel true) geo lakeObj.wk lakeObj.cur co nx.H) := by
    refine ⟨fun j hj => ?_, fun k hk => ?_, fun k hk j h1 h2 => ?_⟩
    · rw [(fx j hj).2]
      change j < 2 at hj
      obtain rfl | rfl : j = 0 ∨ j = 1 := by omega
      · rw [lakeHeads.1]; norm_num [inModel, reModel]
      · rw [lakeHeads.2]; norm_num [inModel, reModel]
    · have : k = 0 := by simp only [inModel, reModel] at hk; omega
      subst this
      rw [ends.1, ends.2]
      norm_num [inModel, reModel]
    · simp only [inModel, reModel] at h2; omega
  obtain ⟨r0, r1⟩ := C04_reported_end_depths (inConsistent true) uc hk
  rw [← hnx, ends.1] at r0
  rw [← hnx, ends.2] at r1
  obtain ⟨mo, cn⟩ := C01_momentum_and_continuity (inConsistent true) (inTables true) ps p rfl uc hk
  rw [← hnx] at mo cn
  have i1 : (inModel true).ix.i_1k 0 = 0 := rfl
  have I1 : (inModel true).ix.I_1k 0 = 0 := rfl
  have n1 : (inModel true).ix.nk 0 = 1 := rfl
  rw [I1] at r0
  rw [I1, n1] at r1
  have s0 : lakeObj.cur.h 0 = 3 / 2 := by norm_num [lakeObj, Model.start, lakeGiven]
  have s1 : lakeObj.cur.h 1 = 1 := by norm_num [lakeObj, Model.start, lakeGiven]
  have QI : ∀ i, lakeInp.Q_0Ik i = 0 := fun _ => rfl
  rw [zero_add] at r1
  refine ⟨r0, r1, ?_, ?_, ?_⟩
  · have mo := mo 0 (by norm_num [inModel, reModel])
    have Q0 : ∀ i, lakeObj.cur.Q i = 0 := fun _ => rfl
    have S0 : (inModel true).S_o 0 = 0 := rfl
    have D0 : (inModel true).dx 0 = 10 := rfl
    have M0 : (inModel true).method 0 = 0 := rfl
    have C0 : (inModel true).ctrl 0 = false := rfl
    have G0 : (inModel true).g = 9.81 := rfl
    have T0 : lakeInp.dt = 1 := rfl
    simp only [MomentumEq, i1, I1, velocityUp, velocityDown, Q0, S0, D0, M0, C0, G0, T0, frictionLaw, n1, zero_add,
      gA, gs] at mo
    rw [r0, r1] at mo
    norm_num at mo
    norm_num
    linarith
  · have c0 := cn 0 (by omega)
    simp only [ContinuityEq, I1, arriving, leaving, n1, i1, add_zero, QI, r0, s0] at c0
    norm_num at c0
    linarith
  · have c1 := cn 1 (by rw [n1])
    simp only [ContinuityEq, I1, arriving, leaving, n1, i1, zero_add, QI, r1, s1] at c1
    norm_num at c1
    linarith

/-- **C160, refuted.** However many iterations are allowed and however small the tolerance, the step of the channel
between two lakes returns the flow of a channel without friction, which does not solve the implicit equations. -/
theorem C160_friction_ignored {numIter : ℕ} {tol : ℝ} (ht : 0 < tol) :
    (∃ o', StepIter (inModel true) inPlan numIter tol lakeInp lakeObj o') ∧
    ∀ o', StepIter (inModel true) inPlan numIter tol lakeInp lakeObj o' →
      o'.cur.Q 0 = 9.81 / 16 ∧
      ∀ Ao, ¬ Implicit (inModel true) ((inModel true).geoOf inPlan o'.hid Ao o'.cur) lakeInp lakeObj.cur o'.cur := by
  constructor
  · obtain ⟨o', h⟩ := C105_step_succeeds (inSound true) lakeGood true lakeGoodObj
    exact ⟨o', (lake_iff ht).2 h⟩
  · intro o' h
    obtain ⟨h0, h1, hQ, hu, hd⟩ := lake_pass ((lake_iff ht).1 h)
    refine ⟨hQ, fun Ao im => ?_⟩
    have mo := im.momentum 0 (by norm_num [inModel, reModel]) 0 (by norm_num [inModel, reModel])
    have gA : ((inModel true).geoOf inPlan o'.hid Ao o'.cur).A 0 = 5 / 4 := by
      show (inPlan.sec 0).A (o'.cur.h 0) (o'.cur.h 1) = _
      rw [h0, h1]
      norm_num [inPlan, rePlan, Section.A, Geometry.area, rectA, depth, wet]
    have gR : 0 < ((inModel true).geoOf inPlan o'.hid Ao o'.cur).R 0 := by
      show 0 < (inPlan.sec 0).R _ _ (o'.cur.h 0) (o'.cur.h 1)
      rw [h0, h1]
      norm_num [inPlan, rePlan, Section.R, Geometry.area, rectA, depth, wet, perimeter, hydRadius, rectPe]
    have gs : ((inModel true).geoOf inPlan o'.hid Ao o'.cur).sigma 0 = 1 := rfl
    generalize (inModel true).geoOf inPlan o'.hid Ao o'.cur = geo at mo gA gR gs
    have i1 : (inModel true).ix.i_1k 0 = 0 := rfl
    have I1 : (inModel true).ix.I_1k 0 = 0 := rfl
    have n1 : (inModel true).ix.nk 0 = 1 := rfl
    have Q0 : ∀ i, lakeObj.cur.Q i = 0 := fun _ => rfl
    have S0 : (inModel true).S_o 0 = 0 := rfl
    have D0 : (inModel true).dx 0 = 10 := rfl
    have M0 : (inModel true).method 0 = 0 := rfl
    have C0 : (inModel true).ctrl 0 = false := rfl
    have G0 : (inModel true).g = 9.81 := rfl
    have N0 : (inModel true).n 0 = 1 / 100 := rfl
    have T0 : lakeInp.dt = 1 := rfl
    simp only [MomentumEq, i1, I1, Q0, S0, D0, M0, C0, G0, T0, N0, frictionLaw, n1, zero_add,
      gA, gs, arriving, leaving, hu, hd, h0, h1, hQ] at mo
    have Rp : 0 < geo.R 0 ^ (4 / 3 : ℝ) := Real.rpow_pos_of_pos gR _
    generalize geo.R 0 ^ (4 / 3 : ℝ) = r at mo Rp
    norm_num at mo
    exact absurd mo (by positivity)

/-- A flow towards the higher lake, brought to rest by the slope of the surface within a second: an implicit
solution which the pass reproduces, and not a steady state. -/
example : ∃ prev, prev.Q 0 = -(9.81 / 16) ∧ ∀ Ao co x,
    Pass (inModel true) ((inModel true).geoOf inPlan lakeObj.hid Ao lakeObj.cur) lakeInp freshWork prev lakeObj.cur co x →
    SameState (inModel true) lakeObj.cur ((inModel true).advance
      ((inModel true).geoOf inPlan lakeObj.hid Ao lakeObj.cur) lakeInp freshWork lakeObj.cur co x) := by
  refine ⟨{ lakeObj.cur with Q := fun _ => -(9.81 / 16) }, rfl, fun Ao co x p => ?_⟩
  have ps := physical_geoOf (inSound true) lakeGood lakeObj.hid Ao lakeGoodObj.wet
  have wet := lakeGoodObj.wet
  have hs := (inSound true).sec 0 (by norm_num [inModel, reModel])
  have k0 : ∀ k, k < (inModel true).ix.NK → k = 0 := fun k hk => by simp only [inModel, reModel] at hk; omega
  have s0 : lakeObj.cur.h 0 = 3 / 2 := by norm_num [lakeObj, Model.start, lakeGiven]
  have s1 : lakeObj.cur.h 1 = 1 := by norm_num [lakeObj, Model.start, lakeGiven]
  refine C160_solution_kept (inConsistent true) (inTables true) ps (freshClean _) rfl ?_ ?_ ?_ p
  · refine ⟨fun k hk => ?_, fun k hk => ?_, ?_, ?_, ?_⟩
    all_goals first
      | (intro a ha; simp [inModel, reModel] at ha)
      | skip
    · obtain rfl := k0 k hk
      show 0 < upTo 1 _ 0
      rw [upTo_of_lt _ (by norm_num)]
      refine Section.A_pos (md := (inModel true).min_depth) (by norm_num [inModel, reModel]) hs (wet 0) ?_
      have e : (inModel true).Ju 0 = 0 := rfl
      rw [e, lakeHeads.1]
      norm_num [lakeObj, Hidden.fresh, inModel, reModel]
    · obtain rfl := k0 k hk
      show 0 < upTo 1 _ 0
      rw [upTo_of_lt _ (by norm_num)]
      refine Section.A_pos (md := (inModel true).min_depth) (by norm_num [inModel, reModel]) hs (wet _) ?_
      have e : (inModel true).Jd 0 = 1 := rfl
      rw [e, lakeHeads.2]
      norm_num [lakeObj, Hidden.fresh, inModel, reModel]
  · refine ⟨fun i hi => ?_, fun k hk j hj => ?_, fun k hk j h1 h2 => ?_, fun k hk => by norm_num [inModel, reModel]⟩
    · change i < 2 at hi
      obtain rfl | rfl : i = 0 ∨ i = 1 := by omega
      · rw [lakeHeads.1]; norm_num [inModel, reModel]
      · rw [lakeHeads.2]; norm_num [inModel, reModel]
    · exact lt_of_lt_of_le (by norm_num [inModel, reModel]) (lakeWet _)
    · simp only [inModel, reModel] at h2; omega
  · refine ⟨fun i hi hb f hf => ?_, fun i hi hb => ?_, fun k hk j hj => ?_, fun k hk j hj => ?_, fun k hk => ?_,
      fun k hk => ?_, ?_, ?_, ?_⟩
    all_goals first
      | (intro a ha; simp [inModel, reModel] at ha)
      | skip
    · cases hf
    · cases hb
    · obtain rfl := k0 k hk
      obtain rfl : j = 0 := by simp only [inModel, reModel] at hj; omega
      have gA : ((inModel true).geoOf inPlan lakeObj.hid Ao lakeObj.cur).A 0 = 5 / 4 := by
        norm_num [Model.geoOf, inPlan, rePlan, Section.A, Geometry.area, rectA, depth, Geometry.wet, s0, s1]
      have gs : ((inModel true).geoOf inPlan lakeObj.hid Ao lakeObj.cur).sigma 0 = 1 := rfl
      generalize (inModel true).geoOf inPlan lakeObj.hid Ao lakeObj.cur = geo at gA gs
      have i1 : (inModel true).ix.i_1k 0 = 0 := rfl
      have I1 : (inModel true).ix.I_1k 0 = 0 := rfl
      have n1 : (inModel true).ix.nk 0 = 1 := rfl
      have Q0 : ∀ i, lakeObj.cur.Q i = 0 := fun _ => rfl
      have q0 : lakeObj.cur.Qu 0 = 0 := rfl
      have q1 : lakeObj.cur.Qd 0 = 0 := rfl
      have S0 : (inModel true).S_o 0 = 0 := rfl
      have D0 : (inModel true).dx 0 = 10 := rfl
      have C0 : (inModel true).ctrl 0 = false := rfl
      have G0 : (inModel true).g = 9.81 := rfl
      have T0 : lakeInp.dt = 1 := rfl
      simp only [MomentumEq, i1, I1, Q0, S0, D0, C0, G0, T0, n1, zero_add, gA, gs, arriving, leaving, q0, q1, s0, s1]
      norm_num
    · obtain rfl := k0 k hk
      have n1 : (inModel true).ix.nk 0 = 1 := rfl
      have QI : ∀ i, lakeInp.Q_0Ik i = 0 := fun _ => rfl
      have Q0 : ∀ i, lakeObj.cur.Q i = 0 := fun _ => rfl
      have q0 : lakeObj.cur.Qu 0 = 0 := rfl
      have q1 : lakeObj.cur.Qd 0 = 0 := rfl
      simp only [ContinuityEq, arriving, leaving, Q0, q0, q1, QI, ite_self, sub_self, zero_div, mul_zero, add_zero]
    · obtain rfl := k0 k hk
      have e : (inModel true).Ju 0 = 0 := rfl
      have I1 : (inModel true).ix.I_1k 0 = 0 := rfl
      have q0 : lakeObj.cur.Qu 0 = 0 := rfl
      have z : (inModel true).z_uk 0 = 0 := rfl
      rw [e, I1, lakeHeads.1, q0, s0, z]
      norm_num
    · obtain rfl := k0 k hk
      have e : (inModel true).Jd 0 = 1 := rfl
      have I1 : (inModel true).ix.I_1k 0 + (inModel true).ix.nk 0 = 1 := rfl
      have q0 : lakeObj.cur.Qd 0 = 0 := rfl
      have z : (inModel true).z_dk 0 = 0 := rfl
      rw [e, I1, lakeHeads.2, q0, s1, z]
      norm_num

end Pipedream.Step
