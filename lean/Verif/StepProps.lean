import Verif.StepModel

/-!
# Properties of the whole hydraulic step: C06, C07, C08, C09, C10, C14, C16
-/

namespace Pipedream.Step

open Pipedream.Sweep Pipedream.Link Pipedream.Superlink Pipedream.Control Pipedream.Network

variable {m : Model} {geo : Geo} {inp : Inputs} {wk : Work} {prev cur : Hyd} {co : Coef ℝ} {x : ℕ → ℝ}

/-- The matrices kept between steps hold only what assemblies of this network can have left. -/
structure CleanWork (m : Model) (w : Mats ℝ) : Prop where
  A : CleanA m.bc m.Ju m.Jd m.ix.NK w.A
  O : Clean m.bc m.Juo m.Jdo m.n_o w.O
  W : Clean m.bc m.Juw m.Jdw m.n_w w.W
  P : Clean m.bc m.Jup m.Jdp m.n_p w.P

theorem CleanWork.mats (h : CleanWork m wk.mats) : CleanMats (m.net geo inp wk cur co) wk.mats :=
  ⟨h.A, h.O, h.W, h.P⟩

/-- Cleanliness is kept by a pass. -/
theorem CleanWork.next (h : CleanWork m wk.mats) : CleanWork m (m.work geo inp wk cur co).mats := by
  have := (C11_no_stale_coefficients (m.net geo inp wk cur co) inp.dt wk.mats h.mats).2
  exact ⟨this.A, this.O, this.W, this.P⟩

theorem wired (c : m.Consistent) : Wired (m.net geo inp wk cur co) :=
  ⟨c.Ju, c.Jd, c.Juo, c.Jdo, c.Juw, c.Jdw, c.Jup, c.Jdp⟩

theorem physicalData (c : m.Consistent) (ps : PhysicalStep m geo inp) {k : ℕ} (hk : k < m.ix.NK) :
    PhysicalData m.g (m.linkIn geo inp prev cur) (m.nodeIn geo inp prev) (m.ix.nk k) (m.ix.I_1k k)
      (m.ix.i_1k k) k := by
  have hN := c.inN k hk
  refine ⟨ps.g_pos, ps.dt_pos, rfl, fun j hj => ps.A_pos _ (by omega), fun j hj => ps.R_pos _ (by omega),
    fun j hj => ps.n_pos _ (by omega), fun j hj => ps.dx_pos _ (by omega), fun j hj => ps.C_nonneg _ (by omega),
    fun j hj => ps.sigma_pos _ (by omega), fun _ _ => rfl, fun j hj => ps.B_nonneg _ (by omega), ps.Bu k hk,
    ps.Bd k hk, ps.dxu k hk, ps.dxd k hk, fun j _ => ps.AS_nonneg _⟩

theorem physical (c : m.Consistent) (ps : PhysicalStep m geo inp)
    (hc : StepCoefs m.g m.N (m.linkIn geo inp prev cur) (m.nodeIn geo inp prev) m.nix co)
    {k : ℕ} (hk : k < m.ix.NK) : Physical m.g (co.slice (m.ix.i_1k k) (m.ix.I_1k k)) (m.ix.nk k) :=
  C02_coefficients_physical hc (c.layout.pos k hk) (c.inN k hk) (c.nodes k hk) (physicalData c ps hk)

theorem step_endSigns (c : m.Consistent) (ps : PhysicalStep m geo inp)
    (hc : StepCoefs m.g m.N (m.linkIn geo inp prev cur) (m.nodeIn geo inp prev) m.nix co)
    {k : ℕ} (hk : k < m.ix.NK) : EndSigns (m.endRec wk co k) :=
  endSigns (c.layout.pos k hk) (physical c ps hc hk) (sweptFwd_rel m.g co m.ix wk.f c.layout hk)
    (sweptBwd_rel m.g co m.ix wk.b c.layout hk) m.end_method

theorem step_headSigns (ps : PhysicalStep m geo inp) {k : ℕ} (hk : k < m.ix.NK) :
    HeadSigns (m.headCoef geo cur k) := headCoefZ_signs ps.g_pos (ps.Cu k hk) (ps.Cd k hk)

theorem theta_nonneg (H z : ℝ) : 0 ≤ theta H z := by unfold theta; split_ifs <;> norm_num

/-- The network equations of a physical step are signed. -/
theorem signed (c : m.Consistent) (ps : PhysicalStep m geo inp)
    (hc : StepCoefs m.g m.N (m.linkIn geo inp prev cur) (m.nodeIn geo inp prev) m.nix co) :
    Signed (m.net geo inp wk cur co) := by
  have fs : ∀ k, k < m.ix.NK → FlowSigns (m.endRec wk co k) (m.headCoef geo cur k) := fun k hk =>
    flowSigns (step_endSigns c ps hc hk) (step_headSigns ps hk)
  refine ⟨fun k hk => (fs k hk).alpha_dk, fun k hk => (fs k hk).alpha_uk, fun k hk => (fs k hk).beta_uk,
    fun k hk => (fs k hk).beta_dk, fun k hk => ?_, fun k hk => ?_,
    fun k hk => (orificeLin_signed _ ps.g_pos.le _).1, fun k hk => (orificeLin_signed _ ps.g_pos.le _).2,
    fun k hk => (weirLin_signed _ _ _ _ _ _).1, fun k hk => (weirLin_signed _ _ _ _ _ _).2,
    fun k hk => (pumpLin_signed _ _ (ps.u_p k hk) (ps.b_p k hk)).1,
    fun k hk => (pumpLin_signed _ _ (ps.u_p k hk) (ps.b_p k hk)).2, ps.As⟩
  · have := ps.dxu k hk; have := ps.Bu k hk; have := theta_nonneg (cur.H (m.Ju k)) (m.z_uk k)
    have := ps.dt_pos
    simp only [Model.net, xi]; positivity
  · have := ps.dxd k hk; have := ps.Bd k hk; have := theta_nonneg (cur.H (m.Jd k)) (m.z_dk k)
    have := ps.dt_pos
    simp only [Model.net, xi]; positivity

/-! ### C06: a step can always be taken, in one way -/

/-- **C06 (whole step).** For a consistent model with physical data, the head equations that a step
actually assembles (from the sweeps, the end relations and the linearised controls, over any clean
matrices) have exactly one solution, for any right-hand side. -/
theorem C06_step (c : m.Consistent) (ps : PhysicalStep m geo inp) (cw : CleanWork m wk.mats)
    (hc : StepCoefs m.g m.N (m.linkIn geo inp prev cur) (m.nodeIn geo inp prev) m.nix co) (r : ℕ → ℝ) :
    (∃ x, Solves m.M (m.lhs geo inp wk cur co) r x) ∧
    (∀ x x', Solves m.M (m.lhs geo inp wk cur co) r x → Solves m.M (m.lhs geo inp wk cur co) r x' →
      ∀ i, i < m.M → x i = x' i) :=
  C06_unique_solution (m.net geo inp wk cur co) inp.dt ps.dt_pos wk.mats cw.mats (signed c ps hc) r

/-- The coefficient stage never raises for Manning or Hazen–Williams links. -/
theorem coefs_exist (ps : PhysicalStep m geo inp) (hm : ∀ i, i < m.N → m.method i = 0 ∨ m.method i = 1) :
    ∃ co, StepCoefs m.g m.N (m.linkIn geo inp prev cur) (m.nodeIn geo inp prev) m.nix co := by
  have hb : ∀ i, i < m.N → ∃ b, (m.linkIn geo inp prev cur).b m.g i = .ok b := by
    intro i hi
    obtain ⟨t, ht⟩ := C17_friction_total (Q := cur.Q i) (dx := m.dx i) (A := geo.A i) (R := geo.R i)
      (n := m.n i) (g := m.g) (method := m.method i) (ps.R_pos i hi) (ps.n_pos i hi) (Or.inr (hm i hi))
    unfold LinkIn.b bIk
    simp only [Model.linkIn] at *
    rw [ht]
    exact ⟨_, rfl⟩
  classical
  refine ⟨⟨(m.linkIn geo inp prev cur).a, fun i => if h : i < m.N then (hb i h).choose else 0,
    (m.linkIn geo inp prev cur).c, (m.linkIn geo inp prev cur).P m.g, geo.A,
    nodeE (m.nodeIn geo inp prev) m.nix, nodeD (m.nodeIn geo inp prev) m.nix⟩, fun i hi => ?_, fun _ => rfl, fun _ => rfl⟩
  refine ⟨rfl, ?_, rfl, rfl, rfl⟩
  simp only [hi, dif_pos]
  exact (hb i hi).choose_spec

/-- **C06 (a step always succeeds).** With Manning or Hazen–Williams links a physical step can be taken
from every state. -/
theorem C06_step_exists (c : m.Consistent) (ps : PhysicalStep m geo inp) (cw : CleanWork m wk.mats)
    (hm : ∀ i, i < m.N → m.method i = 0 ∨ m.method i = 1) :
    ∃ co x, Pass m geo inp wk prev cur co x := by
  obtain ⟨co, hc⟩ := coefs_exist (prev := prev) (cur := cur) ps hm
  obtain ⟨x, hx⟩ := (C06_step c ps cw hc (m.rhs geo inp wk prev cur co)).1
  exact ⟨co, x, hc, hx⟩

/-! ### C07, C08 -/

/-- **C07 (whole step, no clipping).** The new heads and the flows evaluated at them balance at every
superjunction without a fixed head. -/
theorem C07_step (c : m.Consistent) (cw : CleanWork m wk.mats) (p : Pass m geo inp wk prev cur co x)
    (hclip : ∀ j, j < m.M → m.z_inv j ≤ x j ∧ x j ≤ m.z_inv j + m.max_depth j)
    (i : ℕ) (hi : i < m.M) (hb : m.bc i = false) :
    Network.Balanced (m.net geo inp wk cur co) inp.dt prev.H inp.Q_in (m.advance geo inp wk cur co x).H i :=
  C07_mass_balance (m.net geo inp wk cur co) inp.dt wk.mats cw.mats (wired c) prev.H inp.Q_in
    (inp.H_bc.getD cur.H) m.z_inv m.max_depth x p.solve hclip i hi hb

/-- **C07 (only this superjunction unclipped).** The new head of an unclipped free superjunction is the
solver's, and it balances the flows of the linearised relations at the solver's heads — also when heads
elsewhere were clipped. -/
theorem C07_step_local (c : m.Consistent) (cw : CleanWork m wk.mats) (p : Pass m geo inp wk prev cur co x)
    (i : ℕ) (hi : i < m.M) (hb : m.bc i = false)
    (hclip : m.z_inv i ≤ x i ∧ x i ≤ m.z_inv i + m.max_depth i) :
    (m.advance geo inp wk cur co x).H i = x i ∧
    Network.Balanced (m.net geo inp wk cur co) inp.dt prev.H inp.Q_in x i :=
  ⟨by simp only [Model.advance, clipHead, max_eq_left hclip.1, min_eq_left hclip.2],
   ((solves_iff (m.net geo inp wk cur co) inp.dt wk.mats cw.mats (wired c) prev.H inp.Q_in
    (inp.H_bc.getD cur.H) x).mp p.solve i hi).2 hb⟩

/-- The superlink flows in the balance are the reported ones. -/
theorem C07_reported_flows (k : ℕ) :
    (m.advance geo inp wk cur co x).Qu k
      = (m.net geo inp wk cur co).links.Qu (m.advance geo inp wk cur co x).H k ∧
    (m.advance geo inp wk cur co x).Qd k
      = (m.net geo inp wk cur co).links.Qd (m.advance geo inp wk cur co x).H k := ⟨rfl, rfl⟩

/-- **C08 (whole step).** A fixed-head superjunction ends at the supplied head (the current head when
none is supplied), limited to the admissible range. -/
theorem C08_step (c : m.Consistent) (cw : CleanWork m wk.mats) (p : Pass m geo inp wk prev cur co x)
    (i : ℕ) (hi : i < m.M) (hb : m.bc i = true) :
    (m.advance geo inp wk cur co x).H i
      = min (max (inp.H_bc.getD cur.H i) (m.z_inv i)) (m.z_inv i + m.max_depth i) :=
  C08_fixed_heads (m.net geo inp wk cur co) inp.dt wk.mats cw.mats (wired c) prev.H inp.Q_in
    (inp.H_bc.getD cur.H) m.z_inv m.max_depth x p.solve i hi hb

/-! ### C09, C10: invariants over histories -/

/-- A `SuperLink` object: saved state, current state, scratch arrays. -/
structure State where
  saved : Hyd
  cur : Hyd
  wk : Work

/-- One call of `_setup_step`/`_solve_step`: with `first_iter` the current state is saved first
(superlink.py 4017–4018). The geometry, inputs and step size are arbitrary. -/
inductive Call (m : Model) : State → State → Prop
  | mk (s : State) (first_iter : Bool) (geo : Geo) (inp : Inputs) (co : Coef ℝ) (x : ℕ → ℝ)
      (p : Pass m geo inp s.wk (if first_iter then s.cur else s.saved) s.cur co x) :
      Call m s ⟨if first_iter then s.cur else s.saved, m.advance geo inp s.wk s.cur co x,
        m.work geo inp s.wk s.cur co⟩

/-- States reached from `s` by any number of calls. -/
inductive Calls (m : Model) (s : State) : State → Prop
  | refl : Calls m s s
  | tail {a b : State} : Calls m s a → Call m a b → Calls m s b

/-- **C09.** After at least one call (the constructor itself performs one, superlink.py 770) and after
any further ones, every superjunction head lies between its invert and invert + max_depth, from any
initial state, for any inputs and step sizes. -/
theorem C09_heads_bounded (hmax : ∀ i, 0 ≤ m.max_depth i) {s s1 s' : State} (h1 : Call m s s1)
    (h : Calls m s1 s') (i : ℕ) :
    m.z_inv i ≤ s'.cur.H i ∧ s'.cur.H i ≤ m.z_inv i + m.max_depth i := by
  have key : ∀ {a b : State}, Call m a b → m.z_inv i ≤ b.cur.H i ∧ b.cur.H i ≤ m.z_inv i + m.max_depth i := by
    intro a b hab
    cases hab
    exact C09_clip_bounds _ _ _ _ (hmax i)
  cases h with
  | refl => exact key h1
  | tail _ h => exact key h

/-- **C10.** Likewise every junction depth is at least `min_depth` and every interior depth at most the
superlink's `max_depth` (or `min_depth` when that is larger). -/
theorem C10_depths_bounded (c : m.Consistent) {s s1 s' : State} (h1 : Call m s s1) (h : Calls m s1 s') :
    (∀ I, m.min_depth ≤ s'.cur.h I) ∧
    (∀ k, k < m.ix.NK → ∀ j, 1 ≤ j → j < m.ix.nk k →
      s'.cur.h (m.ix.I_1k k + j) ≤ max m.min_depth (m.max_depth_k k)) := by
  have key : ∀ {a b : State}, Call m a b → (∀ I, m.min_depth ≤ b.cur.h I) ∧
    (∀ k, k < m.ix.NK → ∀ j, 1 ≤ j → j < m.ix.nk k →
      b.cur.h (m.ix.I_1k k + j) ≤ max m.min_depth (m.max_depth_k k)) := by
    intro a b hab
    cases hab
    exact C10_depth_bounds _ _ m.ix _ _ _ _ _ _ c.layout
  cases h with
  | refl => exact key h1
  | tail _ h => exact key h

/-- **C11 (whole object).** Along any history the matrices stay clean, so every step assembles the
equations a fresh object would assemble. -/
theorem C11_calls_clean {s s' : State} (h : Calls m s s') (h0 : CleanWork m s.wk.mats) :
    CleanWork m s'.wk.mats := by
  induction h with
  | refl => exact h0
  | tail _ hc ih => cases hc; exact ih.next

/-! ### C16: volume conservation of the whole network -/

/-- Volume gained in the step by superjunctions, the pipe ends attached to them, and the pipe interiors
(specification). -/
noncomputable def volumeGain (m : Model) (geo : Geo) (inp : Inputs) (wk : Work) (prev cur next : Hyd)
    (co : Coef ℝ) : ℝ :=
  (∑ i ∈ Finset.range m.M, geo.As i * (next.H i - prev.H i))
  + (∑ i ∈ Finset.range m.M, inp.dt * (m.net geo inp wk cur co).links.xiSum i * (next.H i - prev.H i))
  + ∑ k ∈ Finset.range m.ix.NK, ∑ j ∈ Finset.range (m.ix.nk k + 1),
      junctionArea (m.nodeIn geo inp prev) (m.ix.nk k) (m.ix.I_1k k) (m.ix.i_1k k) k j
        * (next.h (m.ix.I_1k k + j) - prev.h (m.ix.I_1k k + j))

/-- Sum of all continuity equations of a superlink. -/
theorem continuity_sum {K : Type*} [Field K] {g : K} {co : Coef K} {n : ℕ} {Q h : ℕ → K} {Qu Qd : K}
    (hn : 1 ≤ n) (S : SaintVenant g co n Q h Qu Qd) :
    Qu - Qd = ∑ j ∈ Finset.range (n+1), (co.E j * h j - co.D j) := by
  have h1 := interior_sum S (n-1) (by omega)
  have c0 := S.continuity 0 (by omega)
  have cn := S.continuity n le_rfl
  rw [qIn_zero, qOut_lt _ _ hn] at c0
  rw [qOut_end] at cn
  obtain ⟨n, rfl⟩ : ∃ n', n = n' + 1 := ⟨n-1, by omega⟩
  rw [qIn_succ] at cn
  rw [Finset.sum_range_succ, Finset.sum_range_succ', ]
  simp only [Nat.add_sub_cancel] at h1
  rw [← h1]
  linear_combination -cn - c0

theorem ctrl_inflow_sum (C : Ctrls ℝ) (M : ℕ) (hu : ∀ k, k < C.n → C.Ju k < M) (hd : ∀ k, k < C.n → C.Jd k < M)
    (H : ℕ → ℝ) : ∑ i ∈ Finset.range M, C.inflow H i = 0 := by
  simp only [Ctrls.inflow]
  rw [Finset.sum_comm]
  apply Finset.sum_eq_zero
  intro k hk
  have hk := Finset.mem_range.mp hk
  rw [Finset.sum_sub_distrib, Finset.sum_ite_eq, Finset.sum_ite_eq]
  simp [hu k hk, hd k hk]

theorem link_inflow_sum (L : Links ℝ) (M : ℕ) (hu : ∀ k, k < L.n → L.Ju k < M) (hd : ∀ k, k < L.n → L.Jd k < M)
    (H : ℕ → ℝ) : ∑ i ∈ Finset.range M, L.inflow H i = ∑ k ∈ Finset.range L.n, (L.Qd H k - L.Qu H k) := by
  simp only [Links.inflow]
  rw [Finset.sum_comm]
  apply Finset.sum_congr rfl
  intro k hk
  have hk := Finset.mem_range.mp hk
  rw [Finset.sum_sub_distrib, Finset.sum_ite_eq, Finset.sum_ite_eq]
  simp [hu k hk, hd k hk]

/-- No bound was active in the step. -/
structure Unclipped (m : Model) (x : ℕ → ℝ) (next : Hyd) (hu hd : ℕ → ℝ) : Prop where
  heads : ∀ j, j < m.M → m.z_inv j ≤ x j ∧ x j ≤ m.z_inv j + m.max_depth j
  ends : ∀ k, k < m.ix.NK → m.min_depth ≤ hu k ∧ m.min_depth ≤ hd k ∧ m.min_depth ≤ m.max_depth_k k
  depths : ∀ k, k < m.ix.NK → ∀ j, 1 ≤ j → j < m.ix.nk k →
    m.min_depth < next.h (m.ix.I_1k k + j) ∧ next.h (m.ix.I_1k k + j) < m.max_depth_k k

/-- End depths of the step (`solve_superlink_depths`, superlink.py 3138–3165). -/
noncomputable def endDepthU (m : Model) (geo : Geo) (wk : Work) (cur : Hyd) (co : Coef ℝ) (H : ℕ → ℝ) (k : ℕ) : ℝ :=
  huk (m.endRec wk co k) (m.headCoef geo cur k) (H (m.Ju k)) (H (m.Jd k))

noncomputable def endDepthD (m : Model) (geo : Geo) (wk : Work) (cur : Hyd) (co : Coef ℝ) (H : ℕ → ℝ) (k : ℕ) : ℝ :=
  hdk (m.endRec wk co k) (m.headCoef geo cur k) (H (m.Ju k)) (H (m.Jd k))

/-- **C01 (whole step).** In an unclipped step the new depths and flows satisfy the discretised
Saint-Venant equations of every superlink, with the reported end flows. -/
theorem C01_step (c : m.Consistent) (ps : PhysicalStep m geo inp) (p : Pass m geo inp wk prev cur co x)
    (he : m.end_method = .b)
    (uc : Unclipped m x (m.advance geo inp wk cur co x)
      (endDepthU m geo wk cur co (m.advance geo inp wk cur co x).H)
      (endDepthD m geo wk cur co (m.advance geo inp wk cur co x).H))
    {k : ℕ} (hk : k < m.ix.NK) :
    SaintVenant m.g (co.slice (m.ix.i_1k k) (m.ix.I_1k k)) (m.ix.nk k)
      (fun j => (m.advance geo inp wk cur co x).Q (m.ix.i_1k k + j))
      (fun j => (m.advance geo inp wk cur co x).h (m.ix.I_1k k + j))
      ((m.advance geo inp wk cur co x).Qu k) ((m.advance geo inp wk cur co x).Qd k) := by
  obtain ⟨eu, ed, mm⟩ := uc.ends k hk
  exact C01_with_end_flows m.g co m.ix m.min_depth m.max_depth_k m.back wk.f wk.b ⟨cur.h, cur.Q⟩ c.layout
    (m.endRec wk co) (m.headCoef geo cur)
    (fun k => (m.advance geo inp wk cur co x).H (m.Ju k)) (fun k => (m.advance geo inp wk cur co x).H (m.Jd k))
    (fun k _ => by rw [Model.endRec, he]; rfl) hk (step_headSigns ps hk) (physical c ps p.coefs hk) eu ed mm
    (uc.depths k hk)

/-- **C16.** In a step of a network without fixed heads in which no bound was active, the volume gained
by superjunctions and pipes is exactly `dt` times the external inflow (to superjunctions and to pipe
junctions): superlinks, orifices, weirs and pumps only move water. Default end method. -/
theorem C16_volume_conservation (c : m.Consistent) (ps : PhysicalStep m geo inp) (cw : CleanWork m wk.mats)
    (p : Pass m geo inp wk prev cur co x) (he : m.end_method = .b) (hb : ∀ i, i < m.M → m.bc i = false)
    (uc : Unclipped m x (m.advance geo inp wk cur co x)
      (endDepthU m geo wk cur co (m.advance geo inp wk cur co x).H)
      (endDepthD m geo wk cur co (m.advance geo inp wk cur co x).H)) :
    volumeGain m geo inp wk prev cur (m.advance geo inp wk cur co x) co
      = inp.dt * ((∑ i ∈ Finset.range m.M, inp.Q_in i)
          + ∑ k ∈ Finset.range m.ix.NK, ∑ j ∈ Finset.range (m.ix.nk k + 1), inp.Q_0Ik (m.ix.I_1k k + j)) := by
  set next := m.advance geo inp wk cur co x with hnext
  have dt0 := ps.dt_pos.ne'
  have hw : Wired (m.net geo inp wk cur co) := wired c
  -- superjunctions
  have bal : ∀ i ∈ Finset.range m.M, geo.As i * (next.H i - prev.H i)
      + inp.dt * (m.net geo inp wk cur co).links.xiSum i * (next.H i - prev.H i)
      = inp.dt * (inp.Q_in i + (m.net geo inp wk cur co).links.inflow next.H i
        + (m.net geo inp wk cur co).orifices.inflow next.H i + (m.net geo inp wk cur co).weirs.inflow next.H i
        + (m.net geo inp wk cur co).pumps.inflow next.H i) := by
    intro i hi
    have hi := Finset.mem_range.mp hi
    have h := C07_step c cw p uc.heads i hi (hb i hi)
    rw [← hnext, Network.Balanced] at h
    rw [← h]
    simp only [Model.net]
    field_simp
  have s1 := Finset.sum_congr rfl bal
  rw [Finset.sum_add_distrib, ← Finset.mul_sum, Finset.sum_add_distrib, Finset.sum_add_distrib,
    Finset.sum_add_distrib, Finset.sum_add_distrib,
    ctrl_inflow_sum _ m.M hw.ou hw.od, ctrl_inflow_sum _ m.M hw.wu hw.wd, ctrl_inflow_sum _ m.M hw.pu hw.pd,
    link_inflow_sum _ m.M hw.lu hw.ld] at s1
  -- pipes
  have pipe : ∀ k ∈ Finset.range m.ix.NK, ∑ j ∈ Finset.range (m.ix.nk k + 1),
      junctionArea (m.nodeIn geo inp prev) (m.ix.nk k) (m.ix.I_1k k) (m.ix.i_1k k) k j
        * (next.h (m.ix.I_1k k + j) - prev.h (m.ix.I_1k k + j))
      = inp.dt * (next.Qu k - next.Qd k + ∑ j ∈ Finset.range (m.ix.nk k + 1), inp.Q_0Ik (m.ix.I_1k k + j)) := by
    intro k hk
    have hk := Finset.mem_range.mp hk
    have S := continuity_sum (c.layout.pos k hk) (C01_step c ps p he uc hk)
    rw [← hnext] at S
    rw [S, ← Finset.sum_add_distrib, Finset.mul_sum]
    apply Finset.sum_congr rfl
    intro j hj
    have hj : j ≤ m.ix.nk k := by have := Finset.mem_range.mp hj; omega
    obtain ⟨eE, eD⟩ := node_coeffs_eq (y := m.nodeIn geo inp prev) (c.layout.pos k hk) (c.nodes k hk) hj
    simp only [Coef.slice]
    rw [p.coefs.2.1, p.coefs.2.2, eE, eD]
    simp only [Model.nodeIn]
    field_simp
    ring
  rw [volumeGain, s1, Finset.sum_congr rfl pipe, ← Finset.mul_sum, ← mul_add]
  congr 1
  rw [Finset.sum_add_distrib]
  have e : ∑ k ∈ Finset.range (m.net geo inp wk cur co).links.n,
      ((m.net geo inp wk cur co).links.Qd next.H k - (m.net geo inp wk cur co).links.Qu next.H k)
      = - ∑ k ∈ Finset.range m.ix.NK, (next.Qu k - next.Qd k) := by
    rw [← Finset.sum_neg_distrib]
    apply Finset.sum_congr rfl
    intro k _
    rw [hnext, (C07_reported_flows k).1, (C07_reported_flows k).2]
    ring
  rw [e]
  ring

/-! ### C14: still water -/

/-- Bed of the pipes: junction inverts `zI`; the link slopes stored by the constructor are the invert
differences over the lengths (superlink.py 497), and the pipe ends sit on their end inverts, i.e. the end
stretches `dx_uk`, `dx_dk` are level (superlink.py 1066–1099 places the first junction at
`z_inv_uk + slope·dx_uk`). -/
structure Bed (m : Model) (zI : ℕ → ℝ) : Prop where
  slope : ∀ k, k < m.ix.NK → ∀ j, j < m.ix.nk k →
    m.S_o (m.ix.i_1k k + j) * m.dx (m.ix.i_1k k + j) = zI (m.ix.I_1k k + j) - zI (m.ix.I_1k k + (j + 1))
  up : ∀ k, k < m.ix.NK → zI (m.ix.I_1k k) = m.z_uk k
  down : ∀ k, k < m.ix.NK → zI (m.ix.I_1k k + m.ix.nk k) = m.z_dk k

/-- Still water at head `H0`: superjunctions and pipes filled to `H0`, all flows zero. -/
structure Still (m : Model) (zI : ℕ → ℝ) (H0 : ℝ) (s : Hyd) : Prop where
  H : ∀ i, i < m.M → s.H i = H0
  h : ∀ k, k < m.ix.NK → ∀ j, j ≤ m.ix.nk k → s.h (m.ix.I_1k k + j) = H0 - zI (m.ix.I_1k k + j)
  Q : ∀ k, k < m.ix.NK → ∀ j, j < m.ix.nk k → s.Q (m.ix.i_1k k + j) = 0
  Qu : ∀ k, k < m.ix.NK → s.Qu k = 0
  Qd : ∀ k, k < m.ix.NK → s.Qd k = 0
  Qo : ∀ k, k < m.n_o → s.Qo k = 0
  Qw : ∀ k, k < m.n_w → s.Qw k = 0
  Qp : ∀ k, k < m.n_p → s.Qp k = 0

/-- Inputs and bounds under which still water is a physical equilibrium: no inflow, fixed heads at `H0`,
pipes ponded within their bounds, each orifice fully below or fully above the water surface, each pump
switched off or with a dry intake. -/
structure StillInputs (m : Model) (inp : Inputs) (zI : ℕ → ℝ) (H0 : ℝ) : Prop where
  Q_in : ∀ i, i < m.M → inp.Q_in i = 0
  Q_0 : ∀ I, inp.Q_0Ik I = 0
  H_bc : ∀ f, inp.H_bc = some f → ∀ i, i < m.M → f i = H0
  heads : ∀ i, i < m.M → m.z_inv i ≤ H0 ∧ H0 ≤ m.z_inv i + m.max_depth i
  depths : ∀ k, k < m.ix.NK → ∀ j, j ≤ m.ix.nk k →
    0 ≤ m.min_depth ∧ m.min_depth ≤ H0 - zI (m.ix.I_1k k + j) ∧ H0 - zI (m.ix.I_1k k + j) ≤ m.max_depth_k k
  orifices : ∀ o, o < m.n_o → 0 ≤ (m.orifice o).opening (inp.u_o o) ∧
    ((m.orifice o).bottom + (m.orifice o).opening (inp.u_o o) < H0 ∨ H0 ≤ (m.orifice o).bottom)
  pumps : ∀ p, p < m.n_p → (inp.u_p p = 0 ∧ (m.pump p).c ≠ 0) ∨ H0 ≤ (m.pump p).z_inv + (m.pump p).z_p

theorem still_saint_venant (c : m.Consistent) (_ps : PhysicalStep m geo inp) {zI : ℕ → ℝ} {H0 : ℝ}
    (bed : Bed m zI) (si : StillInputs m inp zI H0) (sp : Still m zI H0 prev)
    (hc : StepCoefs m.g m.N (m.linkIn geo inp prev cur) (m.nodeIn geo inp prev) m.nix co)
    {k : ℕ} (hk : k < m.ix.NK) :
    SaintVenant m.g (co.slice (m.ix.i_1k k) (m.ix.I_1k k)) (m.ix.nk k) (fun _ => 0)
      (fun j => H0 - zI (m.ix.I_1k k + j)) 0 0 := by
  have hN := c.inN k hk
  have q1 : ∀ I, qIn (fun _ => (0:ℝ)) 0 I = 0 := fun I => by simp [qIn]
  have q2 : ∀ I, qOut (m.ix.nk k) (fun _ => (0:ℝ)) 0 I = 0 := fun I => by simp [qOut]
  refine ⟨fun i hi => ?_, fun I hI => ?_⟩
  · obtain ⟨-, -, -, hP, hA⟩ := hc.1 (m.ix.i_1k k + i) (by omega)
    rw [q1, q2]
    simp only [Coef.slice]
    rw [hP, hA]
    have hs := bed.slope k hk i hi
    have hQ := sp.Q k hk i hi
    simp only [LinkIn.P, PIk, Model.linkIn, hQ]
    linear_combination (-m.g * geo.A (m.ix.i_1k k + i)) * hs
  · rw [q1, q2]
    obtain ⟨eE, eD⟩ := node_coeffs_eq (y := m.nodeIn geo inp prev) (c.layout.pos k hk) (c.nodes k hk) hI
    simp only [Coef.slice]
    rw [hc.2.1, hc.2.2, eE, eD]
    have h0 : (m.nodeIn geo inp prev).Q_0 (m.ix.I_1k k + I) = 0 := si.Q_0 _
    have h1 : (m.nodeIn geo inp prev).h (m.ix.I_1k k + I) = H0 - zI (m.ix.I_1k k + I) := sp.h k hk I hI
    rw [h0, h1]; ring

theorem still_ends (c : m.Consistent) (ps : PhysicalStep m geo inp) {zI : ℕ → ℝ} {H0 : ℝ}
    (bed : Bed m zI) (si : StillInputs m inp zI H0) (sp : Still m zI H0 prev) (sc : Still m zI H0 cur)
    (hc : StepCoefs m.g m.N (m.linkIn geo inp prev cur) (m.nodeIn geo inp prev) m.nix co)
    {k : ℕ} (hk : k < m.ix.NK) :
    Quk (m.endRec wk co k) (m.headCoef geo cur k) H0 H0 = 0 ∧
    Qdk (m.endRec wk co k) (m.headCoef geo cur k) H0 H0 = 0 ∧
    huk (m.endRec wk co k) (m.headCoef geo cur k) H0 H0 = H0 - zI (m.ix.I_1k k) ∧
    hdk (m.endRec wk co k) (m.headCoef geo cur k) H0 H0 = H0 - zI (m.ix.I_1k k + m.ix.nk k) := by
  have n1 := c.layout.pos k hk
  have S := still_saint_venant c ps bed si sp hc hk
  have ph := physical c ps hc hk
  have F := sweptFwd_rel m.g co m.ix wk.f c.layout hk
  have B := sweptBwd_rel m.g co m.ix wk.b c.layout hk
  have fs := fwd_sound F (physical_fwdPivots ph F) S (m.ix.nk k - 1) (by omega)
  have bs := bwd_sound B (physical_bwdPivots ph B) S 0 n1
  have c0 := S.continuity 0 (by omega)
  have cn := S.continuity (m.ix.nk k) le_rfl
  have q1 : ∀ I, qIn (fun _ => (0:ℝ)) 0 I = 0 := fun I => by simp [qIn]
  have q2 : ∀ I, qOut (m.ix.nk k) (fun _ => (0:ℝ)) 0 I = 0 := fun I => by simp [qOut]
  rw [q1, q2] at c0 cn
  have en : m.ix.nk k - 1 + 1 = m.ix.nk k := by omega
  simp only [en, add_zero] at fs bs c0 cn
  have D0 : DkStar (m.endRec wk co k) (m.headCoef geo cur k) ≠ 0 :=
    ne_of_gt (lt_of_lt_of_le zero_lt_one (DkStar_ge_one (step_endSigns c ps hc hk) (step_headSigns ps hk)))
  have hu0 : cur.H (m.Ju k) = H0 := sc.H _ (c.Ju k hk)
  have hd0 : cur.H (m.Jd k) = H0 := sc.H _ (c.Jd k hk)
  have d0 := si.depths k hk 0 (by omega)
  have dn := si.depths k hk (m.ix.nk k) le_rfl
  rw [add_zero, bed.up k hk] at d0
  rw [bed.down k hk] at dn
  have tu : theta H0 (m.z_uk k) = 1 := by rw [theta, if_pos]; linarith [d0.1, d0.2.1]
  have td : theta H0 (m.z_dk k) = 1 := by rw [theta, if_pos]; linarith [dn.1, dn.2.1]
  have R : EndRelations (m.endRec wk co k) (m.headCoef geo cur k) H0 H0 0 0 (H0 - zI (m.ix.I_1k k))
      (H0 - zI (m.ix.I_1k k + m.ix.nk k)) := by
    refine ⟨?_, ?_, ?_, ?_⟩
    · unfold Model.endRec Superlink.endRec
      cases m.end_method
      · simp only [add_zero, Model.bwd]; linear_combination bs
      · simp only [add_zero, Model.bwd]; linear_combination bs - c0
    · unfold Model.endRec Superlink.endRec
      cases m.end_method
      · simp only [Model.fwd]; linear_combination fs
      · simp only [Model.fwd]; linear_combination fs + cn
    · simp only [Model.headCoef, headCoefZ, hu0, tu, bed.up k hk]; ring
    · simp only [Model.headCoef, headCoefZ, hd0, td, bed.down k hk]; ring
  obtain ⟨a1, a2, a3, a4⟩ := C04_end_relations_unique _ _ _ _ _ _ _ _ D0 R
  exact ⟨a1.symm, a2.symm, a3.symm, a4.symm⟩

theorem orificeLin_rest (old : Lin) (g Ao Co Hu Hd u Hu' Hd' : ℝ) (o : Orifice) :
    (orificeLin old g 0 Ao Co Hu Hd u o).eval Hu' Hd' = 0 := by
  rw [orificeLin, C11_orifice_no_stale old ⟨0, 0, 0⟩]
  simp only [gammaO, abs_zero, safeDivide_eq, div_zero, orificeCoef, Lin.eval]
  split_ifs <;> simp

theorem weirLin_rest (old : Lin) (Hu Hd u Hu' Hd' : ℝ) (w : Weir) :
    (weirLin old 0 Hu Hd u w).eval Hu' Hd' = 0 := by
  rw [C11_weir_no_stale old ⟨0, 0, 0⟩]
  simp only [weirLin, gammaW, abs_zero, safeDivide_eq, div_zero, Lin.eval]
  split_ifs <;> simp

theorem pumpLin_off (old : Lin) (Q Hu Hd Hu' Hd' : ℝ) (p : Pump) :
    (pumpLin old Q Hu Hd 0 p).eval Hu' Hd' = 0 := by
  rw [C11_pump_no_stale old ⟨0, 0, 0⟩]
  simp only [pumpLin, gammaP, safeDivide_eq, zero_div, Lin.eval]
  split_ifs <;> simp

theorem ctrl_inflow_zero (C : Ctrls ℝ) (H : ℕ → ℝ) (h : ∀ k, k < C.n → C.Q H k = 0) (i : ℕ) :
    C.inflow H i = 0 := by
  apply Finset.sum_eq_zero
  intro k hk
  rw [h k (Finset.mem_range.mp hk)]; simp

/-- **C14 (one pass; partial).** Still water stays still: for every network, bed profile, geometry and
`dt`, a pass from still water reproduces heads, depths and flows exactly. Missing: pipes whose end
stretches are sloped (`C14_sloped_ends_flow` shows that these do move), and heads inside an orifice
opening (`C20_equal_heads_flow`). -/
theorem C14_still_water_partial (c : m.Consistent) (ps : PhysicalStep m geo inp) (cw : CleanWork m wk.mats)
    {zI : ℕ → ℝ} {H0 : ℝ} (bed : Bed m zI) (si : StillInputs m inp zI H0) (sp : Still m zI H0 prev)
    (sc : Still m zI H0 cur) (p : Pass m geo inp wk prev cur co x) :
    Still m zI H0 (m.advance geo inp wk cur co x) := by
  have ends := fun {k : ℕ} (hk : k < m.ix.NK) => still_ends (wk := wk) c ps bed si sp sc p.coefs hk
  have hpump : ∀ q, q < m.n_p → ∀ Hu' Hd', (m.pLin inp wk cur q).eval Hu' Hd' = 0 := by
    intro q hq Hu' Hd'
    rcases si.pumps q hq with ⟨h, -⟩ | h
    · simp only [Model.pLin, h]; exact pumpLin_off _ _ _ _ _ _ _
    · simp only [Model.pLin]
      rw [(C22_pump_dry (wk.lp q) (cur.Qp q) (cur.H (m.Jup q)) (cur.H (m.Jdp q)) (inp.u_p q) (m.pump q)
        (by rw [sc.H _ (c.Jup q hq)]; exact h)).2]
      simp [Lin.eval]
  -- heads
  have sol : Solves m.M (m.lhs geo inp wk cur co) (m.rhs geo inp wk prev cur co) (fun _ => H0) := by
    refine (solves_iff (m.net geo inp wk cur co) inp.dt wk.mats cw.mats (wired c) prev.H inp.Q_in
      (inp.H_bc.getD cur.H) _).mpr fun i hi => ⟨fun _ => ?_, fun _ => ?_⟩
    · cases hbc : inp.H_bc with
      | none => simp [sc.H i hi]
      | some f => simp [si.H_bc f hbc i hi]
    · unfold Network.Balanced
      have l0 : (m.net geo inp wk cur co).links.inflow (fun _ => H0) i = 0 := by
        apply Finset.sum_eq_zero
        intro k hk
        obtain ⟨e1, e2, -, -⟩ := ends (Finset.mem_range.mp hk)
        have h1 : (m.net geo inp wk cur co).links.Qu (fun _ => H0) k = 0 := e1
        have h2 : (m.net geo inp wk cur co).links.Qd (fun _ => H0) k = 0 := e2
        rw [h1, h2]; simp
      have o0 := ctrl_inflow_zero (m.net geo inp wk cur co).orifices (fun _ => H0) (fun o ho => by
        have h0 : cur.Qo o = 0 := sc.Qo o ho
        have := orificeLin_rest (wk.lo o) m.g (geo.Ao o) (m.Co o) (cur.H (m.Juo o)) (cur.H (m.Jdo o)) (inp.u_o o)
          H0 H0 (m.orifice o)
        show (orificeLin (wk.lo o) m.g (cur.Qo o) _ _ _ _ _ _).eval H0 H0 = 0
        rw [h0]; exact this) i
      have w0 := ctrl_inflow_zero (m.net geo inp wk cur co).weirs (fun _ => H0) (fun w hw => by
        have h0 : cur.Qw w = 0 := sc.Qw w hw
        have := weirLin_rest (wk.lw w) (cur.H (m.Juw w)) (cur.H (m.Jdw w)) (inp.u_w w) H0 H0 (m.weir w)
        show (weirLin (wk.lw w) (cur.Qw w) _ _ _ _).eval H0 H0 = 0
        rw [h0]; exact this) i
      have p0 := ctrl_inflow_zero (m.net geo inp wk cur co).pumps (fun _ => H0) (fun q hq => hpump q hq H0 H0) i
      rw [l0, o0, w0, p0, si.Q_in i hi, sp.H i hi]; simp
  have hx : ∀ i, i < m.M → x i = H0 :=
    (C06_step c ps cw p.coefs _).2 x (fun _ => H0) p.solve sol
  have hH : ∀ i, i < m.M → (m.advance geo inp wk cur co x).H i = H0 := by
    intro i hi
    obtain ⟨a, b⟩ := si.heads i hi
    simp only [Model.advance, clipHead, hx i hi, max_eq_left a, min_eq_left b]
  -- pipes
  have pipes : ∀ k, k < m.ix.NK →
      (∀ j, j ≤ m.ix.nk k → (m.advance geo inp wk cur co x).h (m.ix.I_1k k + j) = H0 - zI (m.ix.I_1k k + j)) ∧
      (∀ j, j < m.ix.nk k → (m.advance geo inp wk cur co x).Q (m.ix.i_1k k + j) = 0) := by
    intro k hk
    obtain ⟨-, -, e3, e4⟩ := ends hk
    have d0 := si.depths k hk 0 (by omega)
    have dn := si.depths k hk (m.ix.nk k) le_rfl
    rw [add_zero] at d0
    have hu : endDepthU m geo wk cur co (m.advance geo inp wk cur co x).H k = H0 - zI (m.ix.I_1k k) := by
      rw [endDepthU, hH _ (c.Ju k hk), hH _ (c.Jd k hk), e3]
    have hd : endDepthD m geo wk cur co (m.advance geo inp wk cur co x).H k
        = H0 - zI (m.ix.I_1k k + m.ix.nk k) := by
      rw [endDepthD, hH _ (c.Ju k hk), hH _ (c.Jd k hk), e4]
    have := (C01_physical m.g co m.ix m.min_depth m.max_depth_k
      (endDepthU m geo wk cur co (m.advance geo inp wk cur co x).H)
      (endDepthD m geo wk cur co (m.advance geo inp wk cur co x).H) m.back wk.f wk.b ⟨cur.h, cur.Q⟩ c.layout hk
      (by rw [hu]; exact d0.2.1) (by rw [hd]; exact dn.2.1) (le_trans d0.2.1 d0.2.2)
      (physical c ps p.coefs hk)).2.2 (fun _ => 0) (fun j => H0 - zI (m.ix.I_1k k + j)) 0 0
      (still_saint_venant c ps bed si sp p.coefs hk) (by rw [hu, add_zero]) (by rw [hd])
      (fun j _ h2 => (si.depths k hk j h2.le).2)
    exact this
  refine ⟨hH, fun k hk => (pipes k hk).1, fun k hk => (pipes k hk).2, fun k hk => ?_, fun k hk => ?_,
    fun o ho => ?_, fun w hw => ?_, fun q hq => ?_⟩
  · show Quk _ _ ((m.advance geo inp wk cur co x).H (m.Ju k)) ((m.advance geo inp wk cur co x).H (m.Jd k)) = 0
    rw [hH _ (c.Ju k hk), hH _ (c.Jd k hk)]; exact (ends hk).1
  · show Qdk _ _ ((m.advance geo inp wk cur co x).H (m.Ju k)) ((m.advance geo inp wk cur co x).H (m.Jd k)) = 0
    rw [hH _ (c.Ju k hk), hH _ (c.Jd k hk)]; exact (ends hk).2.1
  · show orificeFlow _ _ _ ((m.advance geo inp wk cur co x).H (m.Juo o))
      ((m.advance geo inp wk cur co x).H (m.Jdo o)) _ _ _ _ _ = 0
    rw [hH _ (c.Juo o ho), hH _ (c.Jdo o ho)]
    exact C20_equal_heads_partial _ _ _ _ _ _ _ _ _ (si.orifices o ho).1 (si.orifices o ho).2
  · show weirFlow ((m.advance geo inp wk cur co x).H (m.Juw w))
      ((m.advance geo inp wk cur co x).H (m.Jdw w)) _ _ = 0
    rw [hH _ (c.Juw w hw), hH _ (c.Jdw w hw)]
    exact (C25_direction _ _ _ _).2.2 rfl
  · show pumpFlow ((m.advance geo inp wk cur co x).H (m.Jup q))
      ((m.advance geo inp wk cur co x).H (m.Jdp q)) _ _ = 0
    rw [hH _ (c.Jup q hq), hH _ (c.Jdp q hq)]
    rcases si.pumps q hq with ⟨h, hc0⟩ | h
    · simp only [pumpFlow, h, zero_div, zero_mul]
      split_ifs
      · exact Real.zero_rpow (one_div_ne_zero hc0)
      · rfl
    · exact (C22_pump_dry ⟨0, 0, 0⟩ 0 H0 H0 (inp.u_p q) (m.pump q) h).1

/-- **C14 (for ever; partial).** Still water stays still through any number of calls, each with its own
geometry, step size and inputs satisfying the hypotheses. -/
theorem C14_still_for_ever_partial (c : m.Consistent) {zI : ℕ → ℝ} {H0 : ℝ} (bed : Bed m zI)
    (good : Geo → Inputs → Prop)
    (hg : ∀ geo inp, good geo inp → PhysicalStep m geo inp ∧ StillInputs m inp zI H0) {s s' : State}
    (h : Relation.ReflTransGen (fun a b => ∃ (first_iter : Bool) (geo : Geo) (inp : Inputs) (co : Coef ℝ) (x : ℕ → ℝ), good geo inp ∧
      Pass m geo inp a.wk (if first_iter then a.cur else a.saved) a.cur co x ∧
      b = (⟨if first_iter then a.cur else a.saved, m.advance geo inp a.wk a.cur co x,
        m.work geo inp a.wk a.cur co⟩ : State)) s s')
    (cw : CleanWork m s.wk.mats) (sp : Still m zI H0 s.saved) (sc : Still m zI H0 s.cur) :
    Still m zI H0 s'.cur := by
  suffices H : CleanWork m s'.wk.mats ∧ Still m zI H0 s'.saved ∧ Still m zI H0 s'.cur from H.2.2
  induction h with
  | refl => exact ⟨cw, sp, sc⟩
  | @tail a b _ hab ih =>
    obtain ⟨fi, geo, inp, co, x, hgood, p, rfl⟩ := hab
    obtain ⟨cw, sp, sc⟩ := ih
    obtain ⟨ps, si⟩ := hg geo inp hgood
    have sp' : Still m zI H0 (if fi then a.cur else a.saved) := by
      split
      · exact sc
      · exact sp
    exact ⟨cw.next, sp', C14_still_water_partial c ps cw bed si sp' sc p⟩

/-- **C14 is false for sloped end stretches.** If the first junction of some superlink does not lie at the
level of the pipe's upstream end invert (as the constructor arranges whenever `dx_uk > 0` and the pipe is
sloped), no pass leaves still water still: either the end flow or the first depth changes. -/
theorem C14_sloped_ends_flow (c : m.Consistent) {zI : ℕ → ℝ} {H0 : ℝ} (sc : Still m zI H0 cur)
    {k : ℕ} (hk : k < m.ix.NK) (hz : zI (m.ix.I_1k k) ≠ m.z_uk k)
    (hu : m.z_uk k ≤ H0) (hd : m.z_dk k ≤ H0) (mu : m.min_depth ≤ H0 - m.z_uk k)
    (md : m.min_depth ≤ H0 - m.z_dk k) (mm : m.min_depth ≤ m.max_depth_k k) :
    ¬ Still m zI H0 (m.advance geo inp wk cur co x) := by
  intro sn
  have hu0 : cur.H (m.Ju k) = H0 := sc.H _ (c.Ju k hk)
  have hd0 : cur.H (m.Jd k) = H0 := sc.H _ (c.Jd k hk)
  have tu : theta H0 (m.z_uk k) = 1 := by rw [theta, if_pos hu]
  have td : theta H0 (m.z_dk k) = 1 := by rw [theta, if_pos hd]
  have e1 : endDepthU m geo wk cur co (m.advance geo inp wk cur co x).H k = H0 - m.z_uk k := by
    have q : Quk (m.endRec wk co k) (m.headCoef geo cur k) ((m.advance geo inp wk cur co x).H (m.Ju k))
      ((m.advance geo inp wk cur co x).H (m.Jd k)) = 0 := sn.Qu k hk
    rw [endDepthU, huk, q, sn.H _ (c.Ju k hk)]
    simp only [Model.headCoef, headCoefZ, hu0, tu]; ring
  have e2 : endDepthD m geo wk cur co (m.advance geo inp wk cur co x).H k = H0 - m.z_dk k := by
    have q : Qdk (m.endRec wk co k) (m.headCoef geo cur k) ((m.advance geo inp wk cur co x).H (m.Ju k))
      ((m.advance geo inp wk cur co x).H (m.Jd k)) = 0 := sn.Qd k hk
    rw [endDepthD, hdk, q, sn.H _ (c.Jd k hk)]
    simp only [Model.headCoef, headCoefZ, hd0, td]; ring
  have R := sweptInternals_rel m.g co m.ix m.min_depth m.max_depth_k
      (endDepthU m geo wk cur co (m.advance geo inp wk cur co x).H)
      (endDepthD m geo wk cur co (m.advance geo inp wk cur co x).H) m.back wk.f wk.b ⟨cur.h, cur.Q⟩ c.layout hk
      (by rw [e1]; exact mu) (by rw [e2]; exact md) mm
  have h0 := R.h0
  rw [e1] at h0
  have h1 := sn.h k hk 0 (by omega)
  have h2 : (m.advance geo inp wk cur co x).h (m.ix.I_1k k + 0) = H0 - m.z_uk k := h0
  rw [h2, add_zero] at h1
  exact hz (by linarith)

/-! ### Non-vacuity

Two superjunctions (the second one fixed in the C08 variant), one sloped superlink with two links, a
submerged orifice, a weir and a switched-off pump. -/

noncomputable def exModel (fixed : Bool) : Model where
  g := 9.81
  N := 2
  M := 2
  ix := { NK := 1, nk := fun _ => 2, I_1k := fun _ => 0, i_1k := fun _ => 0 }
  nix := { kI := fun _ => 0, fwd := fun I => I, bwd := fun I => I - 1, isStart := fun I => I == 0,
           isEnd := fun I => I == 2 }
  linkStart := fun i => i == 0
  linkEnd := fun i => i == 1
  bc := fun i => i == 1 && fixed
  Ju := fun _ => 0
  Jd := fun _ => 1
  z_inv := fun _ => 0
  max_depth := fun _ => 10
  min_depth := 0.01
  max_depth_k := fun _ => 8
  dx := fun _ => 10
  n := fun _ => 0.01
  A_c := fun _ => 1
  C := fun _ => 0
  ctrl := fun _ => false
  method := fun _ => 0
  S_o := fun _ => 0.1
  A_S := fun _ => 0.1
  dx_uk := fun _ => 0
  dx_dk := fun _ => 0
  z_uk := fun _ => 2
  z_dk := fun _ => 0
  C_uk := fun _ => 0.5
  C_dk := fun _ => 0.5
  end_method := .b
  back := true
  n_o := 1
  Juo := fun _ => 0
  Jdo := fun _ => 1
  orifice := fun _ => ⟨0, 0, 1, 1, false⟩
  Co := fun _ => 0.6
  n_w := 1
  Juw := fun _ => 0
  Jdw := fun _ => 1
  weir := fun _ => ⟨1, 0, 1, 1, 1, 1, 1⟩
  n_p := 1
  Jup := fun _ => 0
  Jdp := fun _ => 1
  pump := fun _ => ⟨0, 0, 5, 0, 5, 1, 1⟩

noncomputable def exGeo : Geo where
  A := fun _ => 1
  R := fun _ => 0.5
  B := fun _ => 1
  A_u := fun _ => 1
  B_u := fun _ => 1
  A_d := fun _ => 1
  B_d := fun _ => 1
  As := fun _ => 3
  V := fun _ => 15
  Ao := fun _ => 1
  sigma := fun _ => 1

noncomputable def exInp : Inputs where
  dt := 60
  H_bc := none
  Q_in := fun _ => 0
  Q_0Ik := fun _ => 0
  u_o := fun _ => 1
  u_w := fun _ => 1
  u_p := fun _ => 0

/-- Junction inverts 2, 1, 0. -/
noncomputable def exBed : ℕ → ℝ := fun I => 2 - I

noncomputable def exStill : Hyd where
  H := fun _ => 5
  h := fun I => 5 - exBed I
  Q := fun _ => 0
  Qu := fun _ => 0
  Qd := fun _ => 0
  Qo := fun _ => 0
  Qw := fun _ => 0
  Qp := fun _ => 0

noncomputable def exWork : Work where
  mats := ⟨fun _ _ => 0, fun _ _ => 0, fun _ _ => 0, fun _ _ => 0⟩
  f := ⟨fun _ => 0, fun _ => 0, fun _ => 0, fun _ => 0⟩
  b := ⟨fun _ => 0, fun _ => 0, fun _ => 0, fun _ => 0⟩
  lo := fun _ => ⟨0, 0, 0⟩
  lw := fun _ => ⟨0, 0, 0⟩
  lp := fun _ => ⟨0, 0, 0⟩

theorem exConsistent (fx : Bool) : (exModel fx).Consistent := by
  refine ⟨⟨fun _ _ => ?_, fun k k' h h' hk => ?_, fun k k' h h' hk => ?_⟩, ?_, fun k hk => ⟨?_, ?_, ?_, ?_, ?_⟩,
    ?_, ?_, ?_, ?_, ?_, ?_, ?_, ?_⟩ <;> simp [exModel] at * <;> try omega

theorem exPhysical (fx : Bool) : PhysicalStep (exModel fx) exGeo exInp := by
  constructor <;> intros <;> norm_num [exModel, exGeo, exInp]

theorem exClean (fx : Bool) : CleanWork (exModel fx) exWork.mats :=
  ⟨⟨fun _ _ _ _ => rfl⟩, ⟨fun _ _ _ _ => rfl, fun _ _ => rfl⟩, ⟨fun _ _ _ _ => rfl, fun _ _ => rfl⟩,
    ⟨fun _ _ _ _ => rfl, fun _ _ => rfl⟩⟩

theorem exBedOk (fx : Bool) : Bed (exModel fx) exBed := by
  constructor
  · intro k hk j hj; simp only [exModel, exBed]; push_cast; ring
  · intro k hk; simp [exModel, exBed]
  · intro k hk; simp [exModel, exBed]

theorem exStillOk (fx : Bool) : Still (exModel fx) exBed 5 exStill := by
  constructor <;> intros <;> simp [exModel, exStill]

theorem exInputsOk (fx : Bool) : StillInputs (exModel fx) exInp exBed 5 := by
  refine ⟨fun _ _ => rfl, fun _ => rfl, fun f hf => by simp [exInp] at hf, fun _ _ => ?_, fun k hk j hj => ?_,
    fun o ho => ?_, fun q hq => Or.inl ⟨rfl, ?_⟩⟩
  · norm_num [exModel]
  · have hj2 : (j:ℝ) ≤ 2 := by exact_mod_cast hj
    have hj0 : (0:ℝ) ≤ j := Nat.cast_nonneg j
    simp only [exModel, exBed]
    push_cast
    refine ⟨by norm_num, by norm_num; linarith, by linarith⟩
  · norm_num [exModel, exInp, Orifice.opening, Orifice.bottom]
  · norm_num [exModel]

/-- A pass exists, it is still, and (without fixed heads) all hypotheses of C07, C16 hold for it. -/
example (fx : Bool) : ∃ co x, Pass (exModel fx) exGeo exInp exWork exStill exStill co x ∧
    Still (exModel fx) exBed 5 ((exModel fx).advance exGeo exInp exWork exStill co x) ∧
    (∀ j, j < (exModel fx).M → (exModel fx).z_inv j ≤ x j ∧ x j ≤ (exModel fx).z_inv j + (exModel fx).max_depth j) := by
  obtain ⟨co, x, p⟩ := C06_step_exists (prev := exStill) (cur := exStill) (exConsistent fx) (exPhysical fx) (exClean fx)
    (fun _ _ => Or.inl rfl)
  have st := C14_still_water_partial (exConsistent fx) (exPhysical fx) (exClean fx) (exBedOk fx) (exInputsOk fx)
    (exStillOk fx) (exStillOk fx) p
  refine ⟨co, x, p, st, fun j hj => ?_⟩
  have h := st.H j hj
  simp only [Model.advance, clipHead, exModel] at h ⊢
  rcases le_total (x j) 0 with h1 | h1
  · rw [max_eq_right h1, min_eq_left (by norm_num)] at h; norm_num at h
  · rw [max_eq_left h1] at h
    refine ⟨h1, ?_⟩
    by_contra h2
    rw [min_eq_right (not_le.mp h2).le] at h
    norm_num at h

end Pipedream.Step
