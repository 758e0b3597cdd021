import Verif.LateralProps

/-!
# C202: the effects of inflows and prescribed heads within a step add up

Steps from one state (same saved and current state, geometry, scratch arrays, controls) which differ in the inflows at
superjunctions, the lateral inflows and the prescribed heads only. The heads solved for are an affine function of these
inputs, and so are end flows, depths and flows in the pipes as long as no limit is reached: the effect of two storms is the
sum of their effects, twice the extra inflow has twice the effect.
-/

namespace Pipedream.Step

open Pipedream.Sweep Pipedream.Link Pipedream.Superlink Pipedream.Control Pipedream.Network

noncomputable section

/-! ### Specification -/

/-- The inputs of a step with other inflows `q`, lateral inflows `l` and prescribed heads `b`. -/
def Inputs.forced (inp : Inputs) (q l : ℕ → ℝ) (b : Option (ℕ → ℝ)) : Inputs := { inp with Q_in := q, Q_0Ik := l, H_bc := b }

/-- Three weights with sum one: `(1, 1, -1)` says that effects add up, `(a, 1 - a, 0)` that they are proportional. -/
structure Weights where
  u : ℝ
  v : ℝ
  w : ℝ
  one : u + v + w = 1

def Weights.of (W : Weights) (x y z : ℝ) : ℝ := W.u * x + W.v * y + W.w * z

/-- The forcing `(q, l, b)` is the weighted sum of three others, wherever the model looks at it. -/
structure Combined (m : Model) (cur : Hyd) (W : Weights) (q q1 q2 q3 l l1 l2 l3 : ℕ → ℝ) (b b1 b2 b3 : Option (ℕ → ℝ)) : Prop where
  inflow : ∀ i, i < m.M → m.bc i = false → q i = W.of (q1 i) (q2 i) (q3 i)
  lateral : ∀ k, k < m.ix.NK → ∀ j, j ≤ m.ix.nk k →
    l (m.ix.I_1k k + j) = W.of (l1 (m.ix.I_1k k + j)) (l2 (m.ix.I_1k k + j)) (l3 (m.ix.I_1k k + j))
  fixed : ∀ i, i < m.M → m.bc i = true →
    b.getD cur.H i = W.of (b1.getD cur.H i) (b2.getD cur.H i) (b3.getD cur.H i)

/-! ### Lemmas -/

variable {m : Model} {geo : Geo} {inp : Inputs} {wk : Work} {prev cur : Hyd} {co co1 co2 co3 : Coef ℝ} {x x1 x2 x3 : ℕ → ℝ}
  {W : Weights} {q q1 q2 q3 l l1 l2 l3 : ℕ → ℝ} {b b1 b2 b3 : Option (ℕ → ℝ)}

theorem forced_physical (ps : PhysicalStep m geo inp) (q l : ℕ → ℝ) (b : Option (ℕ → ℝ)) : PhysicalStep m geo (inp.forced q l b) :=
  ⟨ps.g_pos, ps.dt_pos, ps.A_pos, ps.R_pos, ps.B_nonneg, ps.sigma_pos, ps.n_pos, ps.dx_pos, ps.C_nonneg, ps.AS_nonneg, ps.Bu,
    ps.Bd, ps.dxu, ps.dxd, ps.Cu, ps.Cd, ps.As, ps.u_p, ps.b_p⟩

/-- Coefficients of two such steps: only `D` differs, by the lateral inflow. -/
theorem forced_coefs (c : m.Consistent)
    (hc : StepCoefs m.g m.N (m.linkIn geo (inp.forced q l b) prev cur) (m.nodeIn geo (inp.forced q l b) prev) m.nix co)
    (hc' : StepCoefs m.g m.N (m.linkIn geo (inp.forced q1 l1 b1) prev cur) (m.nodeIn geo (inp.forced q1 l1 b1) prev) m.nix co1)
    {k : ℕ} (hk : k < m.ix.NK) :
    (∀ i, i < m.ix.nk k → co1.a (m.ix.i_1k k + i) = co.a (m.ix.i_1k k + i) ∧ co1.b (m.ix.i_1k k + i) = co.b (m.ix.i_1k k + i) ∧
      co1.c (m.ix.i_1k k + i) = co.c (m.ix.i_1k k + i) ∧ co1.P (m.ix.i_1k k + i) = co.P (m.ix.i_1k k + i) ∧
      co1.A (m.ix.i_1k k + i) = co.A (m.ix.i_1k k + i)) ∧
    ∀ i, i ≤ m.ix.nk k → co1.E (m.ix.I_1k k + i) = co.E (m.ix.I_1k k + i) ∧
      co1.D (m.ix.I_1k k + i) - co.D (m.ix.I_1k k + i) = l1 (m.ix.I_1k k + i) - l (m.ix.I_1k k + i) := by
  have hN := c.inN k hk
  refine ⟨fun i hi => ?_, fun i hi => ?_⟩
  · obtain ⟨a1, b1, c1, P1, A1⟩ := hc.1 (m.ix.i_1k k + i) (by omega)
    obtain ⟨a2, b2, c2, P2, A2⟩ := hc'.1 (m.ix.i_1k k + i) (by omega)
    refine ⟨a2.trans a1.symm, ?_, c2.trans c1.symm, P2.trans P1.symm, A2.trans A1.symm⟩
    have : (Except.ok (co1.b (m.ix.i_1k k + i)) : Except PyErr ℝ) = .ok (co.b (m.ix.i_1k k + i)) := b2.symm.trans b1
    injection this
  · have n1 := node_coeffs_eq (y := m.nodeIn geo (inp.forced q l b) prev) (c.layout.pos k hk) (c.nodes k hk) hi
    have n2 := node_coeffs_eq (y := m.nodeIn geo (inp.forced q1 l1 b1) prev) (c.layout.pos k hk) (c.nodes k hk) hi
    rw [hc.2.1, hc'.2.1, hc.2.2, hc'.2.2, n1.1, n2.1, n1.2, n2.2]
    have e : junctionArea (m.nodeIn geo (inp.forced q1 l1 b1) prev) (m.ix.nk k) (m.ix.I_1k k) (m.ix.i_1k k) k i
        = junctionArea (m.nodeIn geo (inp.forced q l b) prev) (m.ix.nk k) (m.ix.I_1k k) (m.ix.i_1k k) k i := rfl
    refine ⟨by rw [e]; rfl, ?_⟩
    rw [e]
    simp only [Model.nodeIn, Inputs.forced]
    ring

/-- A solution of the equations of a superlink whose end depths go with heads has the end flows and end depths of the step. -/
theorem ends_of_solution (c : m.Consistent) (ps : PhysicalStep m geo inp) (he : m.end_method = .b)
    (hc : StepCoefs m.g m.N (m.linkIn geo inp prev cur) (m.nodeIn geo inp prev) m.nix co) {k : ℕ} (hk : k < m.ix.NK)
    {Hu Hd Qu Qd : ℝ} {Q h : ℕ → ℝ}
    (S : SaintVenant m.g (co.slice (m.ix.i_1k k) (m.ix.I_1k k)) (m.ix.nk k) Q h Qu Qd)
    (eu : h 0 = (m.headCoef geo cur k).kappa_u * Qu + (m.headCoef geo cur k).lam_u * Hu + (m.headCoef geo cur k).mu_u)
    (ed : h (m.ix.nk k) = (m.headCoef geo cur k).kappa_d * Qd + (m.headCoef geo cur k).lam_d * Hd + (m.headCoef geo cur k).mu_d) :
    Qu = Quk (m.endRec wk co k) (m.headCoef geo cur k) Hu Hd ∧ Qd = Qdk (m.endRec wk co k) (m.headCoef geo cur k) Hu Hd ∧
      h 0 = huk (m.endRec wk co k) (m.headCoef geo cur k) Hu Hd ∧ h (m.ix.nk k) = hdk (m.endRec wk co k) (m.headCoef geo cur k) Hu Hd := by
  have n1 := c.layout.pos k hk
  have ph := physical c ps hc hk
  have F := sweptFwd_rel m.g co m.ix wk.f c.layout hk
  have B := sweptBwd_rel m.g co m.ix wk.b c.layout hk
  have fs := fwd_sound F (physical_fwdPivots ph F) S (m.ix.nk k - 1) (by omega)
  have bs := bwd_sound B (physical_bwdPivots ph B) S 0 n1
  have c0 := S.continuity 0 (by omega)
  have cn := S.continuity (m.ix.nk k) le_rfl
  rw [qIn_zero, qOut_lt _ _ n1] at c0
  rw [qOut_end] at cn
  have en : m.ix.nk k - 1 + 1 = m.ix.nk k := by omega
  have qn : qIn Q Qu (m.ix.nk k) = Q (m.ix.nk k - 1) := by rw [qIn, if_neg (by omega)]
  rw [qn] at cn
  rw [en] at fs
  have D0 : DkStar (m.endRec wk co k) (m.headCoef geo cur k) ≠ 0 :=
    ne_of_gt (lt_of_lt_of_le zero_lt_one (DkStar_ge_one (step_endSigns c ps hc hk) (step_headSigns ps hk)))
  refine C04_end_relations_unique _ _ _ _ _ _ _ _ D0 ⟨?_, ?_, eu, ed⟩
  · unfold Model.endRec Superlink.endRec
    rw [he]
    simp only [add_zero, Model.bwd] at bs ⊢
    linear_combination bs - c0
  · unfold Model.endRec Superlink.endRec
    rw [he]
    simp only [Model.fwd] at fs ⊢
    linear_combination fs + cn

/-- Weighted sums of solutions solve the equations with the weighted sum of the lateral inflows. -/
theorem saintVenant_combined (c : m.Consistent) {k : ℕ} (hk : k < m.ix.NK)
    (hc : StepCoefs m.g m.N (m.linkIn geo (inp.forced q l b) prev cur) (m.nodeIn geo (inp.forced q l b) prev) m.nix co)
    (hc1 : StepCoefs m.g m.N (m.linkIn geo (inp.forced q1 l1 b1) prev cur) (m.nodeIn geo (inp.forced q1 l1 b1) prev) m.nix co1)
    (hc2 : StepCoefs m.g m.N (m.linkIn geo (inp.forced q2 l2 b2) prev cur) (m.nodeIn geo (inp.forced q2 l2 b2) prev) m.nix co2)
    (hc3 : StepCoefs m.g m.N (m.linkIn geo (inp.forced q3 l3 b3) prev cur) (m.nodeIn geo (inp.forced q3 l3 b3) prev) m.nix co3)
    (hl : ∀ j, j ≤ m.ix.nk k → l (m.ix.I_1k k + j) = W.of (l1 (m.ix.I_1k k + j)) (l2 (m.ix.I_1k k + j)) (l3 (m.ix.I_1k k + j)))
    {Q1 Q2 Q3 h1 h2 h3 : ℕ → ℝ} {Qu1 Qu2 Qu3 Qd1 Qd2 Qd3 : ℝ}
    (S1 : SaintVenant m.g (co1.slice (m.ix.i_1k k) (m.ix.I_1k k)) (m.ix.nk k) Q1 h1 Qu1 Qd1)
    (S2 : SaintVenant m.g (co2.slice (m.ix.i_1k k) (m.ix.I_1k k)) (m.ix.nk k) Q2 h2 Qu2 Qd2)
    (S3 : SaintVenant m.g (co3.slice (m.ix.i_1k k) (m.ix.I_1k k)) (m.ix.nk k) Q3 h3 Qu3 Qd3) :
    SaintVenant m.g (co.slice (m.ix.i_1k k) (m.ix.I_1k k)) (m.ix.nk k) (fun j => W.of (Q1 j) (Q2 j) (Q3 j))
      (fun j => W.of (h1 j) (h2 j) (h3 j)) (W.of Qu1 Qu2 Qu3) (W.of Qd1 Qd2 Qd3) := by
  have qi : ∀ I, qIn (fun j => W.of (Q1 j) (Q2 j) (Q3 j)) (W.of Qu1 Qu2 Qu3) I
      = W.of (qIn Q1 Qu1 I) (qIn Q2 Qu2 I) (qIn Q3 Qu3 I) := fun I => by unfold qIn; split_ifs <;> rfl
  have qo : ∀ I, qOut (m.ix.nk k) (fun j => W.of (Q1 j) (Q2 j) (Q3 j)) (W.of Qd1 Qd2 Qd3) I
      = W.of (qOut (m.ix.nk k) Q1 Qd1 I) (qOut (m.ix.nk k) Q2 Qd2 I) (qOut (m.ix.nk k) Q3 Qd3 I) :=
    fun I => by unfold qOut; split_ifs <;> rfl
  obtain ⟨f1, g1⟩ := forced_coefs c hc hc1 hk
  obtain ⟨f2, g2⟩ := forced_coefs c hc hc2 hk
  obtain ⟨f3, g3⟩ := forced_coefs c hc hc3 hk
  have w1 := W.one
  refine ⟨fun i hi => ?_, fun I hI => ?_⟩
  · have e1 := S1.momentum i hi
    have e2 := S2.momentum i hi
    have e3 := S3.momentum i hi
    obtain ⟨a1, b1, c1, P1, A1⟩ := f1 i hi
    obtain ⟨a2, b2, c2, P2, A2⟩ := f2 i hi
    obtain ⟨a3, b3, c3, P3, A3⟩ := f3 i hi
    simp only [Coef.slice] at e1 e2 e3 ⊢
    rw [a1, b1, c1, P1, A1] at e1
    rw [a2, b2, c2, P2, A2] at e2
    rw [a3, b3, c3, P3, A3] at e3
    rw [qi, qo]
    simp only [Weights.of]
    linear_combination W.u * e1 + W.v * e2 + W.w * e3 + co.P (m.ix.i_1k k + i) * w1
  · have e1 := S1.continuity I hI
    have e2 := S2.continuity I hI
    have e3 := S3.continuity I hI
    obtain ⟨E1, D1⟩ := g1 I hI
    obtain ⟨E2, D2⟩ := g2 I hI
    obtain ⟨E3, D3⟩ := g3 I hI
    have hl := hl I hI
    simp only [Coef.slice] at e1 e2 e3 ⊢
    rw [E1] at e1
    rw [E2] at e2
    rw [E3] at e3
    rw [qi, qo]
    simp only [Weights.of] at hl ⊢
    linear_combination W.u * e1 + W.v * e2 + W.w * e3 + W.u * D1 + W.v * D2 + W.w * D3
      + (co.D (m.ix.I_1k k + I) - l (m.ix.I_1k k + I)) * w1 - hl

/-- The end flows and end depths at combined heads are the combined ones. -/
theorem ends_combined (c : m.Consistent) (ps : PhysicalStep m geo inp) (he : m.end_method = .b) {k : ℕ} (hk : k < m.ix.NK)
    (hc : StepCoefs m.g m.N (m.linkIn geo (inp.forced q l b) prev cur) (m.nodeIn geo (inp.forced q l b) prev) m.nix co)
    (hc1 : StepCoefs m.g m.N (m.linkIn geo (inp.forced q1 l1 b1) prev cur) (m.nodeIn geo (inp.forced q1 l1 b1) prev) m.nix co1)
    (hc2 : StepCoefs m.g m.N (m.linkIn geo (inp.forced q2 l2 b2) prev cur) (m.nodeIn geo (inp.forced q2 l2 b2) prev) m.nix co2)
    (hc3 : StepCoefs m.g m.N (m.linkIn geo (inp.forced q3 l3 b3) prev cur) (m.nodeIn geo (inp.forced q3 l3 b3) prev) m.nix co3)
    (hl : ∀ j, j ≤ m.ix.nk k → l (m.ix.I_1k k + j) = W.of (l1 (m.ix.I_1k k + j)) (l2 (m.ix.I_1k k + j)) (l3 (m.ix.I_1k k + j)))
    (Hu1 Hu2 Hu3 Hd1 Hd2 Hd3 : ℝ) :
    Quk (m.endRec wk co k) (m.headCoef geo cur k) (W.of Hu1 Hu2 Hu3) (W.of Hd1 Hd2 Hd3)
      = W.of (Quk (m.endRec wk co1 k) (m.headCoef geo cur k) Hu1 Hd1) (Quk (m.endRec wk co2 k) (m.headCoef geo cur k) Hu2 Hd2)
        (Quk (m.endRec wk co3 k) (m.headCoef geo cur k) Hu3 Hd3) ∧
    Qdk (m.endRec wk co k) (m.headCoef geo cur k) (W.of Hu1 Hu2 Hu3) (W.of Hd1 Hd2 Hd3)
      = W.of (Qdk (m.endRec wk co1 k) (m.headCoef geo cur k) Hu1 Hd1) (Qdk (m.endRec wk co2 k) (m.headCoef geo cur k) Hu2 Hd2)
        (Qdk (m.endRec wk co3 k) (m.headCoef geo cur k) Hu3 Hd3) := by
  obtain ⟨Q1, h1, S1, u1, d1⟩ := pipe_solution (wk := wk) c (forced_physical ps q1 l1 b1) he hc1 hk Hu1 Hd1
  obtain ⟨Q2, h2, S2, u2, d2⟩ := pipe_solution (wk := wk) c (forced_physical ps q2 l2 b2) he hc2 hk Hu2 Hd2
  obtain ⟨Q3, h3, S3, u3, d3⟩ := pipe_solution (wk := wk) c (forced_physical ps q3 l3 b3) he hc3 hk Hu3 Hd3
  have w1 := W.one
  obtain ⟨a, b, -⟩ := ends_of_solution (wk := wk) (Hu := W.of Hu1 Hu2 Hu3) (Hd := W.of Hd1 Hd2 Hd3) c
    (forced_physical ps q l b) he hc hk (saintVenant_combined c hk hc hc1 hc2 hc3 hl S1 S2 S3)
    (by
      show W.of (h1 0) (h2 0) (h3 0) = _
      rw [u1, u2, u3, huk, huk, huk]
      simp only [Weights.of]
      linear_combination (m.headCoef geo cur k).mu_u * w1)
    (by
      show W.of (h1 _) (h2 _) (h3 _) = _
      rw [d1, d2, d3, hdk, hdk, hdk]
      simp only [Weights.of]
      linear_combination (m.headCoef geo cur k).mu_d * w1)
  exact ⟨a.symm, b.symm⟩

theorem ctrls_combined (C : Ctrls ℝ) (hu : ∀ k, k < C.n → x (C.Ju k) = W.of (x1 (C.Ju k)) (x2 (C.Ju k)) (x3 (C.Ju k)))
    (hd : ∀ k, k < C.n → x (C.Jd k) = W.of (x1 (C.Jd k)) (x2 (C.Jd k)) (x3 (C.Jd k))) (i : ℕ) :
    C.inflow x i = W.of (C.inflow x1 i) (C.inflow x2 i) (C.inflow x3 i) := by
  have w1 := W.one
  unfold Ctrls.inflow Weights.of
  rw [Finset.mul_sum, Finset.mul_sum, Finset.mul_sum, ← Finset.sum_add_distrib, ← Finset.sum_add_distrib]
  refine Finset.sum_congr rfl fun k hk => ?_
  have e : C.Q x k = W.u * C.Q x1 k + W.v * C.Q x2 k + W.w * C.Q x3 k := by
    unfold Ctrls.Q
    rw [hu k (Finset.mem_range.1 hk), hd k (Finset.mem_range.1 hk)]
    simp only [Weights.of]
    linear_combination -C.chi k * w1
  rw [e]
  split_ifs <;> ring

/-! ### C202 -/

/-- **C202 (heads).** Four steps from one state, the forcing of the first being the weighted sum of the others': so are the heads
solved for. -/
theorem C202_heads (c : m.Consistent) (ps : PhysicalStep m geo inp) (cw : CleanWork m wk.mats) (he : m.end_method = .b)
    (cb : Combined m cur W q q1 q2 q3 l l1 l2 l3 b b1 b2 b3)
    (p : Pass m geo (inp.forced q l b) wk prev cur co x) (p1 : Pass m geo (inp.forced q1 l1 b1) wk prev cur co1 x1)
    (p2 : Pass m geo (inp.forced q2 l2 b2) wk prev cur co2 x2) (p3 : Pass m geo (inp.forced q3 l3 b3) wk prev cur co3 x3)
    {i : ℕ} (hi : i < m.M) : x i = W.of (x1 i) (x2 i) (x3 i) := by
  have pf := forced_physical ps q l b
  refine (C06_unique_solution (m.net geo (inp.forced q l b) wk cur co) inp.dt ps.dt_pos wk.mats cw.mats (signed c pf p.coefs) _).2
    x (fun i => W.of (x1 i) (x2 i) (x3 i)) p.solve ?_ i hi
  refine (solves_iff (m.net geo (inp.forced q l b) wk cur co) inp.dt wk.mats cw.mats (wired c) _ _ _ _).2 fun i hi => ?_
  obtain ⟨s1, t1⟩ := (solves_iff (m.net geo (inp.forced q1 l1 b1) wk cur co1) inp.dt wk.mats cw.mats (wired c) _ _ _ _).1 p1.solve i hi
  obtain ⟨s2, t2⟩ := (solves_iff (m.net geo (inp.forced q2 l2 b2) wk cur co2) inp.dt wk.mats cw.mats (wired c) _ _ _ _).1 p2.solve i hi
  obtain ⟨s3, t3⟩ := (solves_iff (m.net geo (inp.forced q3 l3 b3) wk cur co3) inp.dt wk.mats cw.mats (wired c) _ _ _ _).1 p3.solve i hi
  refine ⟨fun hb => ?_, fun hb => ?_⟩
  · show W.of (x1 i) (x2 i) (x3 i) = b.getD cur.H i
    rw [cb.fixed i hi hb, s1 hb, s2 hb, s3 hb]
    rfl
  · have B1 := t1 hb
    have B2 := t2 hb
    have B3 := t3 hb
    have hq : q i = _ := cb.inflow i hi hb
    unfold Network.Balanced at B1 B2 B3 ⊢
    have li : (m.net geo (inp.forced q l b) wk cur co).links.inflow (fun i => W.of (x1 i) (x2 i) (x3 i)) i
        = W.of ((m.net geo (inp.forced q1 l1 b1) wk cur co1).links.inflow x1 i)
          ((m.net geo (inp.forced q2 l2 b2) wk cur co2).links.inflow x2 i)
          ((m.net geo (inp.forced q3 l3 b3) wk cur co3).links.inflow x3 i) := by
      unfold Links.inflow Weights.of
      rw [Finset.mul_sum, Finset.mul_sum, Finset.mul_sum]
      show _ = ∑ k ∈ Finset.range m.ix.NK, _ + ∑ k ∈ Finset.range m.ix.NK, _ + ∑ k ∈ Finset.range m.ix.NK, _
      rw [← Finset.sum_add_distrib, ← Finset.sum_add_distrib]
      refine Finset.sum_congr rfl fun k hk => ?_
      have hk : k < m.ix.NK := Finset.mem_range.1 hk
      obtain ⟨eu, ed⟩ := ends_combined (wk := wk) c ps he hk p.coefs p1.coefs p2.coefs p3.coefs (cb.lateral k hk) (x1 (m.Ju k))
        (x2 (m.Ju k)) (x3 (m.Ju k)) (x1 (m.Jd k)) (x2 (m.Jd k)) (x3 (m.Jd k))
      simp only [Weights.of] at eu ed
      change (if m.Jd k = i then Qdk (m.endRec wk co k) (m.headCoef geo cur k)
          (W.u * x1 (m.Ju k) + W.v * x2 (m.Ju k) + W.w * x3 (m.Ju k))
          (W.u * x1 (m.Jd k) + W.v * x2 (m.Jd k) + W.w * x3 (m.Jd k)) else 0)
        - (if m.Ju k = i then Quk (m.endRec wk co k) (m.headCoef geo cur k)
          (W.u * x1 (m.Ju k) + W.v * x2 (m.Ju k) + W.w * x3 (m.Ju k))
          (W.u * x1 (m.Jd k) + W.v * x2 (m.Jd k) + W.w * x3 (m.Jd k)) else 0)
        = W.u * ((if m.Jd k = i then Qdk (m.endRec wk co1 k) (m.headCoef geo cur k) (x1 (m.Ju k)) (x1 (m.Jd k)) else 0)
        - (if m.Ju k = i then Quk (m.endRec wk co1 k) (m.headCoef geo cur k) (x1 (m.Ju k)) (x1 (m.Jd k)) else 0))
        + W.v * ((if m.Jd k = i then Qdk (m.endRec wk co2 k) (m.headCoef geo cur k) (x2 (m.Ju k)) (x2 (m.Jd k)) else 0)
        - (if m.Ju k = i then Quk (m.endRec wk co2 k) (m.headCoef geo cur k) (x2 (m.Ju k)) (x2 (m.Jd k)) else 0))
        + W.w * ((if m.Jd k = i then Qdk (m.endRec wk co3 k) (m.headCoef geo cur k) (x3 (m.Ju k)) (x3 (m.Jd k)) else 0)
        - (if m.Ju k = i then Quk (m.endRec wk co3 k) (m.headCoef geo cur k) (x3 (m.Ju k)) (x3 (m.Jd k)) else 0))
      rw [eu, ed]
      split_ifs <;> ring
    have oi := ctrls_combined (W := W) (x := fun i => W.of (x1 i) (x2 i) (x3 i)) (x1 := x1) (x2 := x2) (x3 := x3)
      (m.net geo (inp.forced q l b) wk cur co).orifices (fun _ _ => rfl) (fun _ _ => rfl) i
    have wi := ctrls_combined (W := W) (x := fun i => W.of (x1 i) (x2 i) (x3 i)) (x1 := x1) (x2 := x2) (x3 := x3)
      (m.net geo (inp.forced q l b) wk cur co).weirs (fun _ _ => rfl) (fun _ _ => rfl) i
    have pi := ctrls_combined (W := W) (x := fun i => W.of (x1 i) (x2 i) (x3 i)) (x1 := x1) (x2 := x2) (x3 := x3)
      (m.net geo (inp.forced q l b) wk cur co).pumps (fun _ _ => rfl) (fun _ _ => rfl) i
    rw [li, oi, wi, pi]
    change _ = q i + _ + _ + _ + _
    rw [hq]
    have w1 := W.one
    set N := m.net geo (inp.forced q l b) wk cur co
    change (N.As i / inp.dt + N.links.xiSum i) * (x1 i - prev.H i) = q1 i + _ + N.orifices.inflow x1 i + N.weirs.inflow x1 i
      + N.pumps.inflow x1 i at B1
    change (N.As i / inp.dt + N.links.xiSum i) * (x2 i - prev.H i) = q2 i + _ + N.orifices.inflow x2 i + N.weirs.inflow x2 i
      + N.pumps.inflow x2 i at B2
    change (N.As i / inp.dt + N.links.xiSum i) * (x3 i - prev.H i) = q3 i + _ + N.orifices.inflow x3 i + N.weirs.inflow x3 i
      + N.pumps.inflow x3 i at B3
    simp only [Weights.of]
    linear_combination W.u * B1 + W.v * B2 + W.w * B3 + (N.As i / inp.dt + N.links.xiSum i) * prev.H i * w1

/-- No limit was reached by a step. -/
abbrev Free (m : Model) (geo : Geo) (inp : Inputs) (wk : Work) (cur : Hyd) (co : Coef ℝ) (x : ℕ → ℝ) : Prop :=
  Unclipped m x (m.advance geo inp wk cur co x) (endDepthU m geo wk cur co (m.advance geo inp wk cur co x).H)
    (endDepthD m geo wk cur co (m.advance geo inp wk cur co x).H)

theorem free_heads {inp : Inputs} (uc : Free m geo inp wk cur co x) {i : ℕ} (hi : i < m.M) :
    (m.advance geo inp wk cur co x).H i = x i := by
  obtain ⟨a, b⟩ := uc.heads i hi
  simp only [Model.advance, clipHead]
  rw [max_eq_left a, min_eq_left b]

/-- **C202 (everything else).** If none of the steps reached a limit, the reported heads, the flows at the ends and inside the
pipes and the depths are weighted sums too. -/
theorem C202_pipes (c : m.Consistent) (ps : PhysicalStep m geo inp) (cw : CleanWork m wk.mats) (he : m.end_method = .b)
    (cb : Combined m cur W q q1 q2 q3 l l1 l2 l3 b b1 b2 b3)
    (p : Pass m geo (inp.forced q l b) wk prev cur co x) (p1 : Pass m geo (inp.forced q1 l1 b1) wk prev cur co1 x1)
    (p2 : Pass m geo (inp.forced q2 l2 b2) wk prev cur co2 x2) (p3 : Pass m geo (inp.forced q3 l3 b3) wk prev cur co3 x3)
    (uc : Free m geo (inp.forced q l b) wk cur co x) (uc1 : Free m geo (inp.forced q1 l1 b1) wk cur co1 x1)
    (uc2 : Free m geo (inp.forced q2 l2 b2) wk cur co2 x2) (uc3 : Free m geo (inp.forced q3 l3 b3) wk cur co3 x3) :
    let s := m.advance geo (inp.forced q l b) wk cur co x
    let s1 := m.advance geo (inp.forced q1 l1 b1) wk cur co1 x1
    let s2 := m.advance geo (inp.forced q2 l2 b2) wk cur co2 x2
    let s3 := m.advance geo (inp.forced q3 l3 b3) wk cur co3 x3
    (∀ i, i < m.M → s.H i = W.of (s1.H i) (s2.H i) (s3.H i)) ∧
    ∀ k, k < m.ix.NK → s.Qu k = W.of (s1.Qu k) (s2.Qu k) (s3.Qu k) ∧ s.Qd k = W.of (s1.Qd k) (s2.Qd k) (s3.Qd k) ∧
      (∀ j, j < m.ix.nk k → s.Q (m.ix.i_1k k + j) = W.of (s1.Q (m.ix.i_1k k + j)) (s2.Q (m.ix.i_1k k + j)) (s3.Q (m.ix.i_1k k + j))) ∧
      ∀ j, j ≤ m.ix.nk k → s.h (m.ix.I_1k k + j) = W.of (s1.h (m.ix.I_1k k + j)) (s2.h (m.ix.I_1k k + j)) (s3.h (m.ix.I_1k k + j)) := by
  intro s s1 s2 s3
  have hH : ∀ i, i < m.M → s.H i = W.of (s1.H i) (s2.H i) (s3.H i) := fun i hi => by
    rw [free_heads uc hi, free_heads uc1 hi, free_heads uc2 hi, free_heads uc3 hi]
    exact C202_heads c ps cw he cb p p1 p2 p3 hi
  refine ⟨hH, fun k hk => ?_⟩
  have S := C01_step c (forced_physical ps q l b) p he uc hk
  have S1 := C01_step c (forced_physical ps q1 l1 b1) p1 he uc1 hk
  have S2 := C01_step c (forced_physical ps q2 l2 b2) p2 he uc2 hk
  have S3 := C01_step c (forced_physical ps q3 l3 b3) p3 he uc3 hk
  have T := saintVenant_combined (W := W) c hk p.coefs p1.coefs p2.coefs p3.coefs (cb.lateral k hk) S1 S2 S3
  obtain ⟨d0, dn⟩ := C04_reported_end_depths c uc hk
  obtain ⟨u1, v1⟩ := C04_reported_end_depths c uc1 hk
  obtain ⟨u2, v2⟩ := C04_reported_end_depths c uc2 hk
  obtain ⟨u3, v3⟩ := C04_reported_end_depths c uc3 hk
  have w1 := W.one
  obtain ⟨a1, a2, a3, a4⟩ := ends_of_solution (wk := wk) (Hu := s.H (m.Ju k)) (Hd := s.H (m.Jd k)) c
    (forced_physical ps q l b) he p.coefs hk T
    (by
      show W.of (s1.h (m.ix.I_1k k)) (s2.h (m.ix.I_1k k)) (s3.h (m.ix.I_1k k)) = _
      rw [u1, u2, u3, hH _ (c.Ju k hk)]
      unfold endDepthU
      rw [huk, huk, huk]
      change W.of (_ * s1.Qu k + _ * s1.H (m.Ju k) + _) (_ * s2.Qu k + _ * s2.H (m.Ju k) + _) (_ * s3.Qu k + _ * s3.H (m.Ju k) + _)
        = _ * W.of (s1.Qu k) (s2.Qu k) (s3.Qu k) + _ + _
      simp only [Weights.of]
      linear_combination (m.headCoef geo cur k).mu_u * w1)
    (by
      show W.of (s1.h (m.ix.I_1k k + m.ix.nk k)) (s2.h (m.ix.I_1k k + m.ix.nk k)) (s3.h (m.ix.I_1k k + m.ix.nk k)) = _
      rw [v1, v2, v3, hH _ (c.Jd k hk)]
      unfold endDepthD
      rw [hdk, hdk, hdk]
      change W.of (_ * s1.Qd k + _ * s1.H (m.Jd k) + _) (_ * s2.Qd k + _ * s2.H (m.Jd k) + _) (_ * s3.Qd k + _ * s3.H (m.Jd k) + _)
        = _ * W.of (s1.Qd k) (s2.Qd k) (s3.Qd k) + _ + _
      simp only [Weights.of]
      linear_combination (m.headCoef geo cur k).mu_d * w1)
  have F := sweptFwd_rel m.g co m.ix wk.f c.layout hk
  obtain ⟨r1, r2, r3, r4⟩ := solution_unique (c.layout.pos k hk) F
    (physical_fwdPivots (physical c (forced_physical ps q l b) p.coefs hk) F) S T (d0.trans a3.symm) (dn.trans a4.symm)
  exact ⟨r3, r4, r1, r2⟩

/-- **C202, effects add up.** A step with nothing extra, one with extra inflow `dq` at superjunctions and `dl` in pipes, one
with `eq` and `el`, and one with both: the changes of every head add up. -/
theorem C202_add (c : m.Consistent) (ps : PhysicalStep m geo inp) (cw : CleanWork m wk.mats) (he : m.end_method = .b)
    {dq eq dl el : ℕ → ℝ} {x0 x1 x2 x12 : ℕ → ℝ} {co0 co12 : Coef ℝ}
    (p0 : Pass m geo (inp.forced q l b) wk prev cur co0 x0)
    (p1 : Pass m geo (inp.forced (fun i => q i + dq i) (fun i => l i + dl i) b) wk prev cur co1 x1)
    (p2 : Pass m geo (inp.forced (fun i => q i + eq i) (fun i => l i + el i) b) wk prev cur co2 x2)
    (p12 : Pass m geo (inp.forced (fun i => q i + dq i + eq i) (fun i => l i + dl i + el i) b) wk prev cur co12 x12)
    {i : ℕ} (hi : i < m.M) : x12 i - x0 i = (x1 i - x0 i) + (x2 i - x0 i) := by
  have h := C202_heads (W := ⟨1, 1, -1, by norm_num⟩) c ps cw he
    ⟨fun i _ _ => by simp only [Weights.of]; ring, fun k _ j _ => by simp only [Weights.of]; ring,
      fun i _ _ => by simp only [Weights.of]; ring⟩ p12 p1 p2 p0 hi
  simp only [Weights.of] at h
  linear_combination h

/-- **C202, effects are proportional.** `a` times the extra inflow has `a` times the effect. -/
theorem C202_scale (c : m.Consistent) (ps : PhysicalStep m geo inp) (cw : CleanWork m wk.mats) (he : m.end_method = .b) (a : ℝ)
    {dq dl : ℕ → ℝ} {x0 x1 xa : ℕ → ℝ} {co0 coa : Coef ℝ}
    (p0 : Pass m geo (inp.forced q l b) wk prev cur co0 x0)
    (p1 : Pass m geo (inp.forced (fun i => q i + dq i) (fun i => l i + dl i) b) wk prev cur co1 x1)
    (pa : Pass m geo (inp.forced (fun i => q i + a * dq i) (fun i => l i + a * dl i) b) wk prev cur coa xa)
    {i : ℕ} (hi : i < m.M) : xa i - x0 i = a * (x1 i - x0 i) := by
  have h := C202_heads (W := ⟨a, 1 - a, 0, by ring⟩) c ps cw he
    ⟨fun i _ _ => by simp only [Weights.of]; ring, fun k _ j _ => by simp only [Weights.of]; ring,
      fun i _ _ => by simp only [Weights.of]; ring⟩ pa p1 p0 p0 hi
  simp only [Weights.of] at h
  linear_combination h

/-! ### Examples -/

/-- A channel with water at rest, 1 m deep, between two basins with free surfaces: two inflows together raise every level by
the sum of what each of them does. -/
example (dq eq dl el : ℕ → ℝ) : ∃ (co0 co1 co2 co12 : Coef ℝ) (x0 x1 x2 x12 : ℕ → ℝ),
    Pass (exModel false) exGeo (exInp.forced (fun _ => 0) (fun _ => 0) none) exWork exStill exStill co0 x0 ∧
    Pass (exModel false) exGeo (exInp.forced (fun i => 0 + dq i) (fun i => 0 + dl i) none) exWork exStill exStill co1 x1 ∧
    Pass (exModel false) exGeo (exInp.forced (fun i => 0 + eq i) (fun i => 0 + el i) none) exWork exStill exStill co2 x2 ∧
    Pass (exModel false) exGeo (exInp.forced (fun i => 0 + dq i + eq i) (fun i => 0 + dl i + el i) none) exWork exStill exStill co12 x12 ∧
    ∀ i, i < (exModel false).M → x12 i - x0 i = (x1 i - x0 i) + (x2 i - x0 i) := by
  have ex : ∀ q l : ℕ → ℝ, ∃ co x, Pass (exModel false) exGeo (exInp.forced q l none) exWork exStill exStill co x := fun q l =>
    C06_step_exists (exConsistent false) (forced_physical (exPhysical false) q l none) (exClean false) (fun _ _ => Or.inl rfl)
  obtain ⟨co0, x0, p0⟩ := ex (fun _ => 0) (fun _ => 0)
  obtain ⟨co1, x1, p1⟩ := ex (fun i => 0 + dq i) (fun i => 0 + dl i)
  obtain ⟨co2, x2, p2⟩ := ex (fun i => 0 + eq i) (fun i => 0 + el i)
  obtain ⟨co12, x12, p12⟩ := ex (fun i => 0 + dq i + eq i) (fun i => 0 + dl i + el i)
  exact ⟨co0, co1, co2, co12, x0, x1, x2, x12, p0, p1, p2, p12, fun i hi => C202_add (exConsistent false) (exPhysical false)
    (exClean false) rfl p0 p1 p2 p12 hi⟩

/-- The channel of `InitialProps` between two fixed heads, water at rest. -/
def supGeo : Geo := (inModel true).geoOf inPlan (Hidden.fresh fun _ => 0) (fun _ => 0) ((inModel true).start (inGiven 1))

theorem sup_physical : PhysicalStep (inModel true) supGeo (reInp 1) :=
  physical_geoOf (inSound true) ⟨(reGood 1).dt_pos, fun p hp => by simp [inModel, reModel] at hp,
    fun p hp => by simp [inModel, reModel] at hp⟩ (Hidden.fresh fun _ => 0) _ (fun _ => by norm_num [inModel, reModel, Model.start, inGiven])

/-- With heads prescribed between 1 cm and 10 m, whatever flows into the pipe, no limit is reached. -/
theorem sup_free {q l h : ℕ → ℝ} (hh : ∀ i, 1 / 100 ≤ h i ∧ h i ≤ 10) {co : Coef ℝ} {x : ℕ → ℝ}
    (p : Pass (inModel true) supGeo ((reInp 1).forced q l (some h)) freshWork ((inModel true).start (inGiven 1))
      ((inModel true).start (inGiven 1)) co x) :
    Free (inModel true) supGeo ((reInp 1).forced q l (some h)) freshWork ((inModel true).start (inGiven 1)) co x := by
  have hx : ∀ i, i < (inModel true).M → x i = h i := fun i hi =>
    ((solves_iff ((inModel true).net supGeo ((reInp 1).forced q l (some h)) freshWork ((inModel true).start (inGiven 1)) co) 1 _
      (freshClean (inModel true)).mats (wired (inConsistent true)) _ _ _ _).1 p.solve i hi).1 rfl
  have M2 : (inModel true).M = 2 := rfl
  have hd : ∀ i, i < (inModel true).M → (inModel true).z_inv i ≤ x i ∧ x i ≤ (inModel true).z_inv i + (inModel true).max_depth i := by
    intro i hi
    rw [hx i hi]
    have := hh i
    simp only [inModel, reModel]
    constructor <;> linarith [this.1, this.2]
  have aH : ∀ i, i < (inModel true).M →
      ((inModel true).advance supGeo ((reInp 1).forced q l (some h)) freshWork ((inModel true).start (inGiven 1)) co x).H i = h i := by
    intro i hi
    obtain ⟨a, b⟩ := hd i hi
    simp only [Model.advance, clipHead]
    rw [max_eq_left a, min_eq_left b, hx i hi]
  refine ⟨hd, fun k hk => ?_, fun k hk j h1 h2 => ?_⟩
  · have k0 : k = 0 := by simpa [inModel, reModel] using hk
    subst k0
    unfold endDepthU endDepthD
    rw [aH _ (by norm_num [inModel, reModel]), aH _ (by norm_num [inModel, reModel]), huk, hdk]
    have e1 : ((inModel true).headCoef supGeo ((inModel true).start (inGiven 1)) 0).kappa_u = 0 := by
      simp [Model.headCoef, headCoefZ, gammaUk, Model.start, inGiven, safeDivide_eq]
    have e2 : ((inModel true).headCoef supGeo ((inModel true).start (inGiven 1)) 0).kappa_d = 0 := by
      simp [Model.headCoef, headCoefZ, gammaDk, Model.start, inGiven, safeDivide_eq]
    have e3 : ((inModel true).headCoef supGeo ((inModel true).start (inGiven 1)) 0).lam_u = 1 := by
      norm_num [Model.headCoef, headCoefZ, theta, Model.start, inGiven, inModel, reModel]
    have e4 : ((inModel true).headCoef supGeo ((inModel true).start (inGiven 1)) 0).lam_d = 1 := by
      norm_num [Model.headCoef, headCoefZ, theta, Model.start, inGiven, inModel, reModel]
    have e5 : ((inModel true).headCoef supGeo ((inModel true).start (inGiven 1)) 0).mu_u = 0 := by
      simp [Model.headCoef, headCoefZ, inModel]
    have e6 : ((inModel true).headCoef supGeo ((inModel true).start (inGiven 1)) 0).mu_d = 0 := by
      simp [Model.headCoef, headCoefZ, inModel]
    rw [e1, e2, e3, e4, e5, e6]
    refine ⟨?_, ?_, by norm_num [inModel, reModel]⟩
    · simpa [inModel, reModel] using (hh 0).1
    · simpa [inModel, reModel] using (hh 1).1
  · simp [inModel, reModel] at h2; omega

/-- Any four forcings of which the first is the weighted sum of the others: the flow at the lower end of the channel is the
weighted sum of the flows. -/
example (W : Weights) (l1 l2 l3 h1 h2 h3 : ℕ → ℝ) (b1 : ∀ i, 1 / 100 ≤ h1 i ∧ h1 i ≤ 10) (b2 : ∀ i, 1 / 100 ≤ h2 i ∧ h2 i ≤ 10)
    (b3 : ∀ i, 1 / 100 ≤ h3 i ∧ h3 i ≤ 10) (b : ∀ i, 1 / 100 ≤ W.of (h1 i) (h2 i) (h3 i) ∧ W.of (h1 i) (h2 i) (h3 i) ≤ 10) :
    let pass := fun l h co x => Pass (inModel true) supGeo ((reInp 1).forced (fun _ => 0) l (some h)) freshWork
      ((inModel true).start (inGiven 1)) ((inModel true).start (inGiven 1)) co x
    let flow := fun l h co x => ((inModel true).advance supGeo ((reInp 1).forced (fun _ => 0) l (some h)) freshWork
      ((inModel true).start (inGiven 1)) co x).Qd 0
    ∃ co x co1 x1 co2 x2 co3 x3, pass (fun i => W.of (l1 i) (l2 i) (l3 i)) (fun i => W.of (h1 i) (h2 i) (h3 i)) co x ∧
      pass l1 h1 co1 x1 ∧ pass l2 h2 co2 x2 ∧ pass l3 h3 co3 x3 ∧
      flow (fun i => W.of (l1 i) (l2 i) (l3 i)) (fun i => W.of (h1 i) (h2 i) (h3 i)) co x =
        W.of (flow l1 h1 co1 x1) (flow l2 h2 co2 x2) (flow l3 h3 co3 x3) := by
  intro pass flow
  have ex : ∀ (l : ℕ → ℝ) (h : ℕ → ℝ), ∃ co x, Pass (inModel true) supGeo ((reInp 1).forced (fun _ => 0) l (some h)) freshWork
      ((inModel true).start (inGiven 1)) ((inModel true).start (inGiven 1)) co x := fun l h =>
    C06_step_exists (inConsistent true) (forced_physical sup_physical _ l _) (freshClean _) (inSound true).friction
  obtain ⟨co, x, p⟩ := ex (fun i => W.of (l1 i) (l2 i) (l3 i)) (fun i => W.of (h1 i) (h2 i) (h3 i))
  obtain ⟨co1, x1, p1⟩ := ex l1 h1
  obtain ⟨co2, x2, p2⟩ := ex l2 h2
  obtain ⟨co3, x3, p3⟩ := ex l3 h3
  obtain ⟨-, r⟩ := C202_pipes (W := W) (inConsistent true) sup_physical (freshClean _) rfl
    ⟨fun _ _ h => by simp [inModel] at h, fun _ _ _ _ => rfl, fun _ _ _ => rfl⟩ p p1 p2 p3 (sup_free b p) (sup_free b1 p1)
    (sup_free b2 p2) (sup_free b3 p3)
  exact ⟨co, x, co1, x1, co2, x2, co3, x3, p, p1, p2, p3, (r 0 (by norm_num [inModel, reModel])).2.1⟩

end

end Pipedream.Step
