import Verif.StepContinuityLemmas
import Verif.PhysicsProps

/-!
# C178: a step depends continuously on the state it starts from
-/

namespace Pipedream.Step

open Filter Topology
open Pipedream.Sweep Pipedream.Link Pipedream.Superlink Pipedream.Control Pipedream.Network

variable {ι : Type*} {l : Filter ι}

/-! ### Specification -/

/-- The states `sN` tend to `s` (heads, depths and flows of pipes). -/
structure StateTo (m : Model) (l : Filter ι) (sN : ι → Hyd) (s : Hyd) : Prop where
  H : ∀ i, i < m.M → Tendsto (fun t => (sN t).H i) l (𝓝 (s.H i))
  h : ∀ k, k < m.ix.NK → ∀ j, j ≤ m.ix.nk k →
    Tendsto (fun t => (sN t).h (m.ix.I_1k k + j)) l (𝓝 (s.h (m.ix.I_1k k + j)))
  Q : ∀ k, k < m.ix.NK → ∀ j, j < m.ix.nk k →
    Tendsto (fun t => (sN t).Q (m.ix.i_1k k + j)) l (𝓝 (s.Q (m.ix.i_1k k + j)))
  Qu : ∀ k, k < m.ix.NK → Tendsto (fun t => (sN t).Qu k) l (𝓝 (s.Qu k))
  Qd : ∀ k, k < m.ix.NK → Tendsto (fun t => (sN t).Qd k) l (𝓝 (s.Qd k))

/-- The sections tend to those of the limit. -/
structure GeoTo (m : Model) (l : Filter ι) (gN : ι → Geo) (g : Geo) : Prop where
  A : ∀ k, k < m.ix.NK → ∀ j, j < m.ix.nk k →
    Tendsto (fun t => (gN t).A (m.ix.i_1k k + j)) l (𝓝 (g.A (m.ix.i_1k k + j)))
  R : ∀ k, k < m.ix.NK → ∀ j, j < m.ix.nk k →
    Tendsto (fun t => (gN t).R (m.ix.i_1k k + j)) l (𝓝 (g.R (m.ix.i_1k k + j)))
  B : ∀ k, k < m.ix.NK → ∀ j, j < m.ix.nk k →
    Tendsto (fun t => (gN t).B (m.ix.i_1k k + j)) l (𝓝 (g.B (m.ix.i_1k k + j)))
  sigma : ∀ k, k < m.ix.NK → ∀ j, j < m.ix.nk k →
    Tendsto (fun t => (gN t).sigma (m.ix.i_1k k + j)) l (𝓝 (g.sigma (m.ix.i_1k k + j)))
  A_u : ∀ k, k < m.ix.NK → Tendsto (fun t => (gN t).A_u k) l (𝓝 (g.A_u k))
  B_u : ∀ k, k < m.ix.NK → Tendsto (fun t => (gN t).B_u k) l (𝓝 (g.B_u k))
  A_d : ∀ k, k < m.ix.NK → Tendsto (fun t => (gN t).A_d k) l (𝓝 (g.A_d k))
  B_d : ∀ k, k < m.ix.NK → Tendsto (fun t => (gN t).B_d k) l (𝓝 (g.B_d k))
  As : ∀ i, i < m.M → Tendsto (fun t => (gN t).As i) l (𝓝 (g.As i))

/-- Step sizes, inflows and prescribed heads tend to those of the limit. -/
structure InputsTo (m : Model) (l : Filter ι) (iN : ι → Inputs) (sN : ι → Hyd) (i : Inputs) (s : Hyd) : Prop where
  dt : Tendsto (fun t => (iN t).dt) l (𝓝 i.dt)
  Q_in : ∀ j, j < m.M → Tendsto (fun t => (iN t).Q_in j) l (𝓝 (i.Q_in j))
  Q_0Ik : ∀ k, k < m.ix.NK → ∀ j, j ≤ m.ix.nk k →
    Tendsto (fun t => (iN t).Q_0Ik (m.ix.I_1k k + j)) l (𝓝 (i.Q_0Ik (m.ix.I_1k k + j)))
  H_bc : ∀ j, j < m.M → Tendsto (fun t => (iN t).H_bc.getD (sN t).H j) l (𝓝 (i.H_bc.getD s.H j))

/-- A linear relation of a control tends to that of the limit. -/
structure LinTo (l : Filter ι) (aN : ι → Lin) (a : Lin) : Prop where
  alpha : Tendsto (fun t => (aN t).alpha) l (𝓝 a.alpha)
  beta : Tendsto (fun t => (aN t).beta) l (𝓝 a.beta)
  chi : Tendsto (fun t => (aN t).chi) l (𝓝 a.chi)

variable {m : Model} {gN : ι → Geo} {iN : ι → Inputs} {wN : ι → Work} {pN sN : ι → Hyd} {cN : ι → Coef ℝ}
  {xN : ι → ℕ → ℝ} {geo : Geo} {inp : Inputs} {wk : Work} {prev s : Hyd} {co : Coef ℝ} {x : ℕ → ℝ}

/-! ### Coefficients -/

theorem uik_to {Q A : ι → ℝ} {Q0 A0 : ℝ} (cQ : Tendsto Q l (𝓝 Q0)) (cA : Tendsto A l (𝓝 A0)) (h : A0 ≠ 0) :
    Tendsto (fun t => uik (Q t) (A t)) l (𝓝 (uik Q0 A0)) := by
  have e : ∀ Q A : ℝ, uik Q A = Q / A := by
    intro Q A; unfold uik; split_ifs with h
    · rfl
    · rw [not_not.mp h, div_zero]
  simp only [e]
  exact cQ.div cA h

theorem nodeD_eq (y : NodeIn) (ix : NodeIdx) (I : ℕ) : nodeD y ix I = y.Q_0 I + nodeE y ix I * y.h I := by
  unfold nodeD nodeE
  dsimp only
  split_ifs <;> (unfold DIk EIk; ring)

theorem node_to (c : m.Consistent) {k : ℕ} (hk : k < m.ix.NK) (hg : GeoTo m l gN geo) (hi : InputsTo m l iN sN inp s)
    (dt0 : inp.dt ≠ 0) {j : ℕ} (hj : j ≤ m.ix.nk k) :
    Tendsto (fun t => nodeE (m.nodeIn (gN t) (iN t) (pN t)) m.nix (m.ix.I_1k k + j)) l
      (𝓝 (nodeE (m.nodeIn geo inp prev) m.nix (m.ix.I_1k k + j))) := by
  have nd := c.nodes k hk
  have n1 := c.layout.pos k hk
  simp only [nodeE, Model.nodeIn, EIk, nd.kI j hj]
  split_ifs with h1 h2
  · have := (nd.start j hj).mp h1
    subst this
    rw [nd.fwd 0 n1]
    exact (((((hg.B k hk 0 n1).mul_const _).div_const _).add (((hg.B_u k hk).mul_const _).div_const _)).add
      tendsto_const_nhds).div hi.dt dt0
  · have := (nd.fin j hj).mp h2
    subst this
    rw [nd.bwd, show m.ix.i_1k k + m.ix.nk k - 1 = m.ix.i_1k k + (m.ix.nk k - 1) by omega]
    exact (((((hg.B_d k hk).mul_const _).div_const _).add (((hg.B k hk _ (by omega)).mul_const _).div_const _)).add
      tendsto_const_nhds).div hi.dt dt0
  · have j0 : j ≠ 0 := fun h => h1 ((nd.start j hj).mpr h)
    have jn : j ≠ m.ix.nk k := fun h => h2 ((nd.fin j hj).mpr h)
    rw [nd.fwd j (by omega), show m.ix.i_1k k + j - 1 = m.ix.i_1k k + (j - 1) by omega]
    exact (((((hg.B k hk j (by omega)).mul_const _).div_const _).add (((hg.B k hk _ (by omega)).mul_const _).div_const _)).add
      tendsto_const_nhds).div hi.dt dt0

theorem coef_to (c : m.Consistent) (st : StartTables m) (psN : ∀ t, PhysicalStep m (gN t) (iN t)) (ps : PhysicalStep m geo inp)
    (hg : GeoTo m l gN geo) (hi : InputsTo m l iN sN inp s) (hp : StateTo m l pN prev) (hs : StateTo m l sN s)
    (coN : ∀ t, StepCoefs m.g m.N (m.linkIn (gN t) (iN t) (pN t) (sN t)) (m.nodeIn (gN t) (iN t) (pN t)) m.nix (cN t))
    (cc : StepCoefs m.g m.N (m.linkIn geo inp prev s) (m.nodeIn geo inp prev) m.nix co) {k : ℕ} (hk : k < m.ix.NK) :
    CoefTo l (fun t => (cN t).slice (m.ix.i_1k k) (m.ix.I_1k k)) (co.slice (m.ix.i_1k k) (m.ix.I_1k k)) (m.ix.nk k) := by
  have lt := c.inN k hk
  have dt0 := ps.dt_pos.ne'
  have hu : ∀ j, j < m.ix.nk k → Tendsto (fun t => uik ((sN t).Q (m.ix.i_1k k + j)) ((gN t).A (m.ix.i_1k k + j))) l
      (𝓝 (uik (s.Q (m.ix.i_1k k + j)) (geo.A (m.ix.i_1k k + j)))) := fun j hj =>
    uik_to (hs.Q k hk j hj) (hg.A k hk j hj) (ps.A_pos _ (by omega)).ne'
  have ha : ∀ j, j < m.ix.nk k → Tendsto (fun t => (cN t).a (m.ix.i_1k k + j)) l (𝓝 (co.a (m.ix.i_1k k + j))) := by
    intro j hj
    rw [funext fun t => ((coN t).1 _ (by omega)).1, (cc.1 _ (by omega)).1]
    simp only [LinkIn.a, Model.linkIn, aIk]
    refine Tendsto.mul (Tendsto.neg (Tendsto.max ?_ tendsto_const_nhds)) (hg.sigma k hk j hj)
    unfold uIk
    by_cases e : m.linkStart (m.ix.i_1k k + j) = true
    · simp only [e, if_true]; exact hu j hj
    · have j0 : j ≠ 0 := fun h => e ((st.first k hk j hj).2 h)
      obtain ⟨i, rfl⟩ := Nat.exists_eq_succ_of_ne_zero j0
      have ei : m.ix.i_1k k + (i + 1) - 1 = m.ix.i_1k k + i := by omega
      simp only [e, if_false, Bool.false_eq_true, Nat.succ_eq_add_one, ei]
      by_cases d : m.dx (m.ix.i_1k k + (i + 1)) + m.dx (m.ix.i_1k k + i) ≠ 0
      · simp only [if_pos d]
        exact (((hu i (by omega)).const_mul _).add ((hu (i + 1) hj).const_mul _)).div_const _
      · simp only [if_neg d]; exact tendsto_const_nhds
  have hc : ∀ j, j < m.ix.nk k → Tendsto (fun t => (cN t).c (m.ix.i_1k k + j)) l (𝓝 (co.c (m.ix.i_1k k + j))) := by
    intro j hj
    rw [funext fun t => ((coN t).1 _ (by omega)).2.2.1, (cc.1 _ (by omega)).2.2.1]
    simp only [LinkIn.c, Model.linkIn, cIk]
    refine Tendsto.mul (Tendsto.neg (Tendsto.max (Tendsto.neg ?_) tendsto_const_nhds)) (hg.sigma k hk j hj)
    unfold uIp1k
    by_cases e : m.linkEnd (m.ix.i_1k k + j) = true
    · simp only [e, if_true]; exact hu j hj
    · have : j + 1 ≠ m.ix.nk k := fun h => e ((st.last k hk j hj).2 h)
      simp only [e, if_false, Bool.false_eq_true]
      by_cases d : m.dx (m.ix.i_1k k + j) + m.dx (m.ix.i_1k k + j + 1) ≠ 0
      · simp only [if_pos d]
        exact (((hu (j + 1) (by omega)).const_mul _).add ((hu j hj).const_mul _)).div_const _
      · simp only [if_neg d]; exact tendsto_const_nhds
  refine ⟨ha, ?_, hc, ?_, ?_, ?_, ?_⟩
  · intro j hj
    have hi' : m.ix.i_1k k + j < m.N := by omega
    have e : ∀ {G : Geo} {I : Inputs} {p s : Hyd} {o : Coef ℝ},
        StepCoefs m.g m.N (m.linkIn G I p s) (m.nodeIn G I p) m.nix o →
        ∃ t, frictionSlope (s.Q (m.ix.i_1k k + j)) (m.dx (m.ix.i_1k k + j)) (G.A (m.ix.i_1k k + j)) (G.R (m.ix.i_1k k + j))
          (m.n (m.ix.i_1k k + j)) (m.method (m.ix.i_1k k + j)) m.g = .ok t ∧
          o.b (m.ix.i_1k k + j) = m.dx (m.ix.i_1k k + j) / I.dt * G.sigma (m.ix.i_1k k + j) + t
            + (if m.ctrl (m.ix.i_1k k + j) then m.C (m.ix.i_1k k + j) * G.A (m.ix.i_1k k + j) * |s.Q (m.ix.i_1k k + j)|
              / m.A_c (m.ix.i_1k k + j) ^ 2 else 0) - o.a (m.ix.i_1k k + j) - o.c (m.ix.i_1k k + j) := by
      intro G I p s o h
      obtain ⟨ea, eb, ec, _, _⟩ := h.1 _ hi'
      rw [ea, ec]
      unfold LinkIn.b bIk at eb
      cases f : frictionSlope (s.Q (m.ix.i_1k k + j)) (m.dx (m.ix.i_1k k + j)) (G.A (m.ix.i_1k k + j))
          (G.R (m.ix.i_1k k + j)) (m.n (m.ix.i_1k k + j)) (m.method (m.ix.i_1k k + j)) m.g with
      | error e => simp only [Model.linkIn] at eb; rw [f] at eb; cases eb
      | ok t =>
        refine ⟨t, rfl, ?_⟩
        simp only [Model.linkIn] at eb
        rw [f] at eb
        exact (Except.ok.inj eb).symm
    choose fN hfN hbN using fun t => e (coN t)
    obtain ⟨f, hf, hb⟩ := e cc
    simp only [Coef.slice]
    rw [funext hbN, hb]
    refine Tendsto.sub (Tendsto.sub (Tendsto.add (Tendsto.add ?_ ?_) ?_) (ha j hj)) (hc j hj)
    · exact (tendsto_const_nhds.div hi.dt dt0).mul (hg.sigma k hk j hj)
    · exact friction_to (ps.A_pos _ hi') (ps.R_pos _ hi') (ps.n_pos _ hi') (fun t => (psN t).A_pos _ hi')
        (fun t => (psN t).R_pos _ hi') (hs.Q k hk j hj) (hg.A k hk j hj) (hg.R k hk j hj) hfN hf
    · cases m.ctrl (m.ix.i_1k k + j)
      · simp only [Bool.false_eq_true, if_false]; exact tendsto_const_nhds
      · simp only [if_true]
        exact (((hg.A k hk j hj).const_mul _).mul (hs.Q k hk j hj).abs).div_const _
  · intro j hj
    simp only [Coef.slice]
    rw [funext fun t => ((coN t).1 _ (by omega)).2.2.2.1, (cc.1 _ (by omega)).2.2.2.1]
    simp only [LinkIn.P, Model.linkIn, PIk]
    exact ((((hp.Q k hk j hj).mul_const _).div hi.dt dt0).mul (hg.sigma k hk j hj)).add
      ((((hg.A k hk j hj).const_mul _).mul_const _).mul_const _)
  · intro j hj
    simp only [Coef.slice]
    rw [funext fun t => ((coN t).1 _ (by omega)).2.2.2.2, (cc.1 _ (by omega)).2.2.2.2]
    exact hg.A k hk j hj
  · intro j hj
    simp only [Coef.slice]
    rw [funext fun t => (coN t).2.1 _, cc.2.1]
    exact node_to c hk hg hi dt0 hj
  · intro j hj
    simp only [Coef.slice]
    rw [funext fun t => (coN t).2.2 _, cc.2.2]
    have e := node_to c hk hg hi dt0 hj (pN := pN) (prev := prev)
    simp only [nodeD_eq]
    exact (hi.Q_0Ik k hk j hj).add (e.mul (hp.h k hk j hj))

/-! ### End relations -/

theorem theta_to {H : ι → ℝ} {H0 z : ℝ} (hH : Tendsto H l (𝓝 H0)) (h : H0 ≠ z) :
    Tendsto (fun t => theta (H t) z) l (𝓝 (theta H0 z)) := by
  refine tendsto_const_nhds.congr' ?_
  rcases lt_or_gt_of_ne h with h | h
  · filter_upwards [hH.eventually_lt_const h] with t ht
    unfold theta
    rw [if_neg (not_le.mpr h), if_neg (not_le.mpr ht)]
  · filter_upwards [hH.eventually_const_lt h] with t ht
    unfold theta
    rw [if_pos h.le, if_pos ht.le]

structure RecTo (l : Filter ι) (rN : ι → EndRec ℝ) (r : EndRec ℝ) : Prop where
  X : Tendsto (fun t => (rN t).X) l (𝓝 r.X)
  Y : Tendsto (fun t => (rN t).Y) l (𝓝 r.Y)
  Z : Tendsto (fun t => (rN t).Z) l (𝓝 r.Z)
  U : Tendsto (fun t => (rN t).U) l (𝓝 r.U)
  V : Tendsto (fun t => (rN t).V) l (𝓝 r.V)
  W : Tendsto (fun t => (rN t).W) l (𝓝 r.W)

structure HeadTo (l : Filter ι) (hN : ι → HeadCoef ℝ) (h : HeadCoef ℝ) : Prop where
  kappa_u : Tendsto (fun t => (hN t).kappa_u) l (𝓝 h.kappa_u)
  lam_u : Tendsto (fun t => (hN t).lam_u) l (𝓝 h.lam_u)
  mu_u : Tendsto (fun t => (hN t).mu_u) l (𝓝 h.mu_u)
  kappa_d : Tendsto (fun t => (hN t).kappa_d) l (𝓝 h.kappa_d)
  lam_d : Tendsto (fun t => (hN t).lam_d) l (𝓝 h.lam_d)
  mu_d : Tendsto (fun t => (hN t).mu_d) l (𝓝 h.mu_d)

/-- The ends of superlink `k` are away from the places where the head relations jump: the level at each end is not exactly
that of the pipe's invert, and the end sections are wet. -/
structure AwayEnds (m : Model) (geo : Geo) (s : Hyd) (k : ℕ) : Prop where
  up : s.H (m.Ju k) ≠ m.z_uk k
  down : s.H (m.Jd k) ≠ m.z_dk k
  A_u : geo.A_u k ≠ 0
  A_d : geo.A_d k ≠ 0

theorem headCoef_to (c : m.Consistent) (g0 : 0 < m.g) (hg : GeoTo m l gN geo) (hs : StateTo m l sN s) {k : ℕ} (hk : k < m.ix.NK)
    (aw : AwayEnds m geo s k) :
    HeadTo l (fun t => m.headCoef (gN t) (sN t) k) (m.headCoef geo s k) := by
  have tu := theta_to (hs.H _ (c.Ju k hk)) aw.up
  have td := theta_to (hs.H _ (c.Jd k hk)) aw.down
  have u0 : 2 * geo.A_u k ^ 2 * m.g ≠ 0 := mul_ne_zero (mul_ne_zero two_ne_zero (pow_ne_zero 2 aw.A_u)) g0.ne'
  have d0 : 2 * geo.A_d k ^ 2 * m.g ≠ 0 := mul_ne_zero (mul_ne_zero two_ne_zero (pow_ne_zero 2 aw.A_d)) g0.ne'
  exact ⟨safeDivide_to (((hs.Qu k hk).abs.neg).mul_const _) ((((hg.A_u k hk).pow 2).const_mul 2).mul_const _) u0, tu,
    tu.neg.mul_const _, safeDivide_to ((hs.Qd k hk).abs.mul_const _) ((((hg.A_d k hk).pow 2).const_mul 2).mul_const _) d0, td,
    td.neg.mul_const _⟩

section flows

variable {rN : ι → EndRec ℝ} {r : EndRec ℝ} {hN : ι → HeadCoef ℝ} {h : HeadCoef ℝ}

theorem DkStar_to (cr : RecTo l rN r) (ch : HeadTo l hN h) :
    Tendsto (fun t => DkStar (rN t) (hN t)) l (𝓝 (DkStar r h)) :=
  ((((cr.X.mul ch.kappa_u).sub_const 1).mul ((cr.U.mul ch.kappa_d).sub_const 1))).sub
    ((cr.Z.mul ch.kappa_d).mul (cr.W.mul ch.kappa_u))

structure FlowTo (l : Filter ι) (rN : ι → EndRec ℝ) (hN : ι → HeadCoef ℝ) (r : EndRec ℝ) (h : HeadCoef ℝ) : Prop where
  au : Tendsto (fun t => alphaUk (rN t) (hN t)) l (𝓝 (alphaUk r h))
  bu : Tendsto (fun t => betaUk (rN t) (hN t)) l (𝓝 (betaUk r h))
  cu : Tendsto (fun t => chiUk (rN t) (hN t)) l (𝓝 (chiUk r h))
  ad : Tendsto (fun t => alphaDk (rN t) (hN t)) l (𝓝 (alphaDk r h))
  bd : Tendsto (fun t => betaDk (rN t) (hN t)) l (𝓝 (betaDk r h))
  cd : Tendsto (fun t => chiDk (rN t) (hN t)) l (𝓝 (chiDk r h))

theorem flow_to (cr : RecTo l rN r) (ch : HeadTo l hN h) (d0 : DkStar r h ≠ 0) : FlowTo l rN hN r h := by
  have D := DkStar_to cr ch
  have one : Tendsto (fun _ : ι => (1 : ℝ)) l (𝓝 1) := tendsto_const_nhds
  have ud := one.sub (cr.U.mul ch.kappa_d)
  have xu := one.sub (cr.X.mul ch.kappa_u)
  have sY := (cr.Y.add (cr.X.mul ch.mu_u)).add (cr.Z.mul ch.mu_d)
  have sV := (cr.V.add (cr.W.mul ch.mu_u)).add (cr.U.mul ch.mu_d)
  exact ⟨safeDivide_to (ch.lam_u.mul ((ud.mul cr.X).add ((cr.Z.mul ch.kappa_d).mul cr.W))) D d0,
    safeDivide_to (ch.lam_d.mul ((ud.mul cr.Z).add ((cr.Z.mul ch.kappa_d).mul cr.U))) D d0,
    safeDivide_to ((ud.mul sY).add ((cr.Z.mul ch.kappa_d).mul sV)) D d0,
    safeDivide_to (ch.lam_u.mul ((xu.mul cr.W).add ((cr.W.mul ch.kappa_u).mul cr.X))) D d0,
    safeDivide_to (ch.lam_d.mul ((xu.mul cr.U).add ((cr.W.mul ch.kappa_u).mul cr.Z))) D d0,
    safeDivide_to ((xu.mul sV).add ((cr.W.mul ch.kappa_u).mul sY)) D d0⟩

end flows

theorem endRec_to (c : m.Consistent) {k : ℕ} (hk : k < m.ix.NK)
    (cc : CoefTo l (fun t => (cN t).slice (m.ix.i_1k k) (m.ix.I_1k k)) (co.slice (m.ix.i_1k k) (m.ix.I_1k k)) (m.ix.nk k))
    (ph : Physical m.g (co.slice (m.ix.i_1k k) (m.ix.I_1k k)) (m.ix.nk k)) :
    RecTo l (fun t => m.endRec (wN t) (cN t) k) (m.endRec wk co k) := by
  have n1 := c.layout.pos k hk
  have f := fwd_to cc ph (fun t => sweptFwd_rel m.g (cN t) m.ix (wN t).f c.layout hk)
    (sweptFwd_rel m.g co m.ix wk.f c.layout hk)
  have b := bwd_to cc ph (fun t => sweptBwd_rel m.g (cN t) m.ix (wN t).b c.layout hk)
    (sweptBwd_rel m.g co m.ix wk.b c.layout hk)
  obtain ⟨_, fU, fV, fW⟩ := f (m.ix.nk k - 1) (by omega)
  obtain ⟨_, bX, bY, bZ⟩ := b 0 n1
  unfold Model.endRec
  cases e : m.end_method
  · simp only [Superlink.endRec]
    exact ⟨bX, bY, bZ, fU, fV, fW⟩
  · simp only [Superlink.endRec]
    exact ⟨bX.add (cc.E 0 (by omega)), bY.sub (cc.D 0 (by omega)), bZ, fU.sub (cc.E _ le_rfl), fV.add (cc.D _ le_rfl), fW⟩

/-! ### Network -/

structure NetTo (l : Filter ι) (nN : ι → Net ℝ) (n : Net ℝ) : Prop where
  As : ∀ i, i < n.M → Tendsto (fun t => (nN t).As i) l (𝓝 (n.As i))
  xi : ∀ i, i < n.M → Tendsto (fun t => (nN t).links.xiSum i) l (𝓝 (n.links.xiSum i))
  flow : ∀ (yN : ι → ℕ → ℝ) (y : ℕ → ℝ), (∀ j, j < n.M → Tendsto (fun t => yN t j) l (𝓝 (y j))) → ∀ i, i < n.M →
    Tendsto (fun t => (nN t).links.inflow (yN t) i + (nN t).orifices.inflow (yN t) i + (nN t).weirs.inflow (yN t) i
      + (nN t).pumps.inflow (yN t) i) l
      (𝓝 (n.links.inflow y i + n.orifices.inflow y i + n.weirs.inflow y i + n.pumps.inflow y i))

/-- Convergence of the equations carries over to their solutions. -/
theorem solution_to {nN : ι → Net ℝ} {n : Net ℝ} (cn : NetTo l nN n) (hM : ∀ t, (nN t).M = n.M) (hbc : ∀ t, (nN t).bc = n.bc)
    {dN : ι → ℝ} {d : ℝ} (d0 : ∀ t, 0 < dN t) (dp : 0 < d) (cd : Tendsto dN l (𝓝 d)) {mN : ι → Mats ℝ} {mt : Mats ℝ}
    (clN : ∀ t, CleanMats (nN t) (mN t)) (cl : CleanMats n mt) (sgN : ∀ t, Signed (nN t)) (wN : ∀ t, Wired (nN t))
    (w : Wired n) (As0 : ∀ i, i < n.M → n.bc i = false → 0 < n.As i)
    {HpN Q0N HbN xN : ι → ℕ → ℝ} {Hp Q0 Hb x : ℕ → ℝ}
    (cH : ∀ i, i < n.M → Tendsto (fun t => HpN t i) l (𝓝 (Hp i))) (cQ : ∀ i, i < n.M → Tendsto (fun t => Q0N t i) l (𝓝 (Q0 i)))
    (cB : ∀ i, i < n.M → Tendsto (fun t => HbN t i) l (𝓝 (Hb i)))
    (hN : ∀ t, Solves (nN t).M (systemMatrix (nN t) (assembleMats (nN t) (dN t) (mN t)))
      (assembleB (nN t) (dN t) (HpN t) (Q0N t) (HbN t)) (xN t))
    (h : Solves n.M (systemMatrix n (assembleMats n d mt)) (assembleB n d Hp Q0 Hb) x) :
    ∀ i, i < n.M → Tendsto (fun t => xN t i) l (𝓝 (x i)) := by
  have hx := (solves_iff n d mt cl w Hp Q0 Hb x).mp h
  -- the limit, with the fixed heads of the perturbed step
  set y : ι → ℕ → ℝ := fun t i => if n.bc i then HbN t i else x i with hy
  have cy : ∀ j, j < n.M → Tendsto (fun t => y t j) l (𝓝 (x j)) := by
    intro j hj
    simp only [hy]
    cases b : n.bc j
    · simp only [Bool.false_eq_true, if_false]; exact tendsto_const_nhds
    · simp only [if_true]; rw [(hx j hj).1 b]; exact cB j hj
  -- the inflows for which it solves the perturbed equations
  set q : ι → ℕ → ℝ := fun t i => ((nN t).As i / dN t + (nN t).links.xiSum i) * (y t i - HpN t i)
    - ((nN t).links.inflow (y t) i + (nN t).orifices.inflow (y t) i + (nN t).weirs.inflow (y t) i
      + (nN t).pumps.inflow (y t) i) with hq
  have sy : ∀ t, Solves (nN t).M (systemMatrix (nN t) (assembleMats (nN t) (dN t) (mN t)))
      (assembleB (nN t) (dN t) (HpN t) (q t) (HbN t)) (y t) := by
    intro t
    rw [solves_iff (nN t) (dN t) (mN t) (clN t) (wN t)]
    intro i _
    refine ⟨fun b => ?_, fun _ => ?_⟩
    · rw [hbc t] at b
      simp only [hy, b, if_true]
    · simp only [Network.Balanced, hq]; ring
  have cq : ∀ i, i < n.M → n.bc i = false → Tendsto (fun t => Q0N t i - q t i) l (𝓝 0) := by
    intro i hi b
    have e := (hx i hi).2 b
    simp only [Network.Balanced] at e
    have : (0 : ℝ) = Q0 i - ((n.As i / d + n.links.xiSum i) * (x i - Hp i)
        - (n.links.inflow x i + n.orifices.inflow x i + n.weirs.inflow x i + n.pumps.inflow x i)) := by rw [e]; ring
    rw [this]
    exact (cQ i hi).sub (((((cn.As i hi).div cd dp.ne').add (cn.xi i hi)).mul ((cy i hi).sub (cH i hi))).sub (cn.flow y x cy i hi))
  have bound : ∀ t i, i < n.M → n.bc i = false →
      (nN t).As i * |xN t i - y t i|
        ≤ ∑ j ∈ (Finset.range n.M).filter (fun i => n.bc i = false), dN t * |Q0N t j - q t j| := by
    intro t i hi b
    have k := C138_heads (nN t) (dN t) (d0 t) (mN t) (mN t) (clN t) (clN t) (sgN t) (wN t) (hN t) (sy t)
    rw [hM t, hbc t] at k
    simp only [sub_self, abs_zero, mul_zero, zero_add] at k
    refine le_trans ?_ k
    have xi0 : ∀ j, 0 ≤ (nN t).links.xiSum j := fun j => Finset.sum_nonneg fun k hk => by
      have hk := Finset.mem_range.mp hk
      refine add_nonneg ?_ ?_
      · split_ifs
        · exact (sgN t).xu k hk
        · exact le_rfl
      · split_ifs
        · exact (sgN t).xd k hk
        · exact le_rfl
    have A0 : ∀ j, j < n.M → n.bc j = false → 0 < (nN t).As j := fun j hj b =>
      (sgN t).As j (by rw [hM]; exact hj) (by rw [hbc]; exact b)
    have mem : i ∈ (Finset.range n.M).filter (fun i => n.bc i = false) := by simp [hi, b]
    have one := Finset.single_le_sum (s := (Finset.range n.M).filter (fun i => n.bc i = false))
      (f := fun j => area (nN t) (dN t) j * |xN t j - y t j|)
      (fun j hj => by
        obtain ⟨hj, bj⟩ : j < n.M ∧ n.bc j = false := by simpa using hj
        exact mul_nonneg (add_nonneg (A0 j hj bj).le (mul_nonneg (d0 t).le (xi0 j))) (abs_nonneg _)) mem
    refine le_trans (mul_le_mul_of_nonneg_right ?_ (abs_nonneg _)) one
    unfold area
    have := mul_nonneg (d0 t).le (xi0 i)
    linarith
  intro i hi
  cases b : n.bc i
  · have z : Tendsto (fun t => (∑ j ∈ (Finset.range n.M).filter (fun i => n.bc i = false), dN t * |Q0N t j - q t j|)
        / (nN t).As i) l (𝓝 0) := by
      have : (0 : ℝ) = (∑ j ∈ (Finset.range n.M).filter (fun i => n.bc i = false), d * |(0 : ℝ)|) / n.As i := by simp
      rw [this]
      refine Tendsto.div (tendsto_finsetSum _ fun j hj => ?_) (cn.As i hi) (As0 i hi b).ne'
      obtain ⟨hj, bj⟩ : j < n.M ∧ n.bc j = false := by simpa using hj
      exact cd.mul (cq j hj bj).abs
    have df : Tendsto (fun t => xN t i - y t i) l (𝓝 0) := by
      refine squeeze_zero_norm (fun t => ?_) z
      rw [Real.norm_eq_abs, le_div_iff₀ ((sgN t).As i (by rw [hM]; exact hi) (by rw [hbc]; exact b)), mul_comm]
      exact bound t i hi b
    have := df.add (cy i hi)
    simpa using this
  · have e : ∀ t, xN t i = HbN t i := fun t =>
      ((solves_iff (nN t) (dN t) (mN t) (clN t) (wN t) _ _ _ _).mp (hN t) i (by rw [hM]; exact hi)).1 (by rw [hbc]; exact b)
    rw [funext e, (hx i hi).1 b]
    exact cB i hi

theorem ite_to {q : Prop} [Decidable q] {f : ι → ℝ} {a : ℝ} (h : Tendsto f l (𝓝 a)) :
    Tendsto (fun t => if q then f t else 0) l (𝓝 (if q then a else 0)) := by
  by_cases hq : q
  · simpa only [if_pos hq] using h
  · simpa only [if_neg hq] using tendsto_const_nhds

theorem ctrls_to {n : ℕ} {Ju Jd : ℕ → ℕ} {M : ℕ} (hu : ∀ k, k < n → Ju k < M) (hd : ∀ k, k < n → Jd k < M)
    {LN : ι → ℕ → Lin} {L : ℕ → Lin} (cl : ∀ k, k < n → LinTo l (fun t => LN t k) (L k))
    {yN : ι → ℕ → ℝ} {y : ℕ → ℝ} (cy : ∀ j, j < M → Tendsto (fun t => yN t j) l (𝓝 (y j))) (i : ℕ) :
    Tendsto (fun t => Ctrls.inflow (⟨n, Ju, Jd, fun k => (LN t k).alpha, fun k => (LN t k).beta, fun k => (LN t k).chi⟩ : Ctrls ℝ)
      (yN t) i) l
      (𝓝 (Ctrls.inflow (⟨n, Ju, Jd, fun k => (L k).alpha, fun k => (L k).beta, fun k => (L k).chi⟩ : Ctrls ℝ) y i)) := by
  unfold Ctrls.inflow Ctrls.Q
  refine tendsto_finsetSum _ fun k hk => ?_
  have hk := Finset.mem_range.mp hk
  have q := (((cl k hk).alpha.mul (cy _ (hu k hk))).add ((cl k hk).beta.mul (cy _ (hd k hk)))).add (cl k hk).chi
  refine Tendsto.sub ?_ ?_
  · exact ite_to (q)
  · exact ite_to (q)

theorem net_to (c : m.Consistent) (dp : inp.dt ≠ 0) (hg : GeoTo m l gN geo) (hi : InputsTo m l iN sN inp s) (hs : StateTo m l sN s)
    (aw : ∀ k, k < m.ix.NK → AwayEnds m geo s k)
    (fl : ∀ k, k < m.ix.NK → FlowTo l (fun t => m.endRec (wN t) (cN t) k) (fun t => m.headCoef (gN t) (sN t) k)
      (m.endRec wk co k) (m.headCoef geo s k))
    (lo : ∀ o, o < m.n_o → LinTo l (fun t => m.oLin (gN t) (iN t) (wN t) (sN t) o) (m.oLin geo inp wk s o))
    (lw : ∀ o, o < m.n_w → LinTo l (fun t => m.wLin (iN t) (wN t) (sN t) o) (m.wLin inp wk s o))
    (lp : ∀ o, o < m.n_p → LinTo l (fun t => m.pLin (iN t) (wN t) (sN t) o) (m.pLin inp wk s o)) :
    NetTo l (fun t => m.net (gN t) (iN t) (wN t) (sN t) (cN t)) (m.net geo inp wk s co) := by
  have d2 : 2 * inp.dt ≠ 0 := mul_ne_zero two_ne_zero dp
  refine ⟨fun i hi => hg.As i hi, fun i _ => ?_, fun yN y cy i _ => ?_⟩
  · unfold Links.xiSum
    refine tendsto_finsetSum _ fun k hk => ?_
    have hk := Finset.mem_range.mp hk
    simp only [Model.net, xi]
    have tu := theta_to (hs.H _ (c.Ju k hk)) (aw k hk).up
    have td := theta_to (hs.H _ (c.Jd k hk)) (aw k hk).down
    refine Tendsto.add ?_ ?_
    · exact ite_to ((((hg.B_u k hk).const_mul _).mul tu).div (hi.dt.const_mul 2) d2)
    · exact ite_to ((((hg.B_d k hk).const_mul _).mul td).div (hi.dt.const_mul 2) d2)
  · refine Tendsto.add (Tendsto.add (Tendsto.add ?_ ?_) ?_) ?_
    · unfold Links.inflow Links.Qu Links.Qd
      refine tendsto_finsetSum _ fun k hk => ?_
      have hk := Finset.mem_range.mp hk
      simp only [Model.net]
      have f := fl k hk
      have yu := cy _ (c.Ju k hk)
      have yd := cy _ (c.Jd k hk)
      refine Tendsto.sub ?_ ?_
      · exact ite_to (((f.ad.mul yu).add (f.bd.mul yd)).add f.cd)
      · exact ite_to (((f.au.mul yu).add (f.bu.mul yd)).add f.cu)
    · exact ctrls_to c.Juo c.Jdo lo cy i
    · exact ctrls_to c.Juw c.Jdw lw cy i
    · exact ctrls_to c.Jup c.Jdp lp cy i

/-! ### Controls away from their thresholds -/

theorem gt_to {f g : ι → ℝ} {a b : ℝ} (cf : Tendsto f l (𝓝 a)) (cg : Tendsto g l (𝓝 b)) (ne : a ≠ b) :
    ∀ᶠ t in l, (f t > g t) = (a > b) := by
  rcases lt_or_gt_of_ne ne with h | h
  · filter_upwards [cf.eventually_lt cg h] with t ht
    exact propext ⟨fun h' => absurd h' (not_lt.mpr ht.le), fun h' => absurd h' (not_lt.mpr h.le)⟩
  · filter_upwards [cg.eventually_lt cf h] with t ht
    exact propext ⟨fun _ => h, fun _ => ht⟩

theorem omega_to {f g : ι → ℝ} {a b : ℝ} (cf : Tendsto f l (𝓝 a)) (cg : Tendsto g l (𝓝 b)) (ne : a ≠ b) :
    ∀ᶠ t in l, omega (f t) (g t) = omega a b ∧ sgn (f t) (g t) = sgn a b ∧ (g t ≥ f t) = (b ≥ a) := by
  rcases lt_or_gt_of_ne ne with h | h
  · filter_upwards [cf.eventually_lt cg h] with t ht
    simp [omega, sgn, not_le.mpr h, not_le.mpr ht, h.le, ht.le]
  · filter_upwards [cg.eventually_lt cf h] with t ht
    simp [omega, sgn, h.le, ht.le, not_le.mpr h, not_le.mpr ht]

theorem LinTo.congr {aN bN : ι → Lin} {a : Lin} (h : LinTo l aN a) (e : ∀ᶠ t in l, bN t = aN t) : LinTo l bN a := by
  refine ⟨h.alpha.congr' ?_, h.beta.congr' ?_, h.chi.congr' ?_⟩ <;>
  · filter_upwards [e] with t ht
    rw [ht]

theorem LinTo.const (a : Lin) : LinTo l (fun _ => a) a := ⟨tendsto_const_nhds, tendsto_const_nhds, tendsto_const_nhds⟩

/-- Both sides submerged. -/
theorem LinTo.both {γN : ι → ℝ} {γ : ℝ} (h : Tendsto γN l (𝓝 γ)) : LinTo l (fun t => ⟨γN t, -γN t, 0⟩) ⟨γ, -γ, 0⟩ :=
  ⟨h, h.neg, tendsto_const_nhds⟩

/-- One side submerged. -/
theorem LinTo.one {γN eN : ι → ℝ} {γ e : ℝ} (ω s : ℝ) (h : Tendsto γN l (𝓝 γ)) (he : Tendsto eN l (𝓝 e)) :
    LinTo l (fun t => ⟨γN t * ω * s, γN t * (1 - ω) * s, γN t * s * eN t⟩) ⟨γ * ω * s, γ * (1 - ω) * s, γ * s * e⟩ :=
  ⟨(h.mul_const _).mul_const _, (h.mul_const _).mul_const _, (h.mul_const _).mul he⟩

open Classical in
/-- The relation of an orifice by the values of its conditions. -/
noncomputable def orificeBy (old : Lin) (γ ω s : ℝ) (c0 c1 c2 c3 : Prop) (e1 e2 : ℝ) : Lin :=
  if (¬c0 ∧ ¬c2) ∨ c3 then ⟨0, 0, 0⟩
  else if ¬c0 ∧ c2 then ⟨γ * ω * s, γ * (1 - ω) * s, γ * s * e2⟩
  else if c0 ∧ ¬c1 then ⟨γ * ω * s, γ * (1 - ω) * s, γ * s * e1⟩
  else if c0 ∧ c1 then ⟨γ, -γ, 0⟩ else old

theorem orificeCoef_by (old : Lin) (γ Hu Hd u : ℝ) (o : Orifice) : orificeCoef old γ Hu Hd u o =
    orificeBy old γ (omega Hu Hd) (sgn Hu Hd)
      (omega Hu Hd * Hu + (1 - omega Hu Hd) * Hd > o.z_o + o.z_inv + (o.tau * o.y_max * u))
      ((1 - omega Hu Hd) * Hu + omega Hu Hd * Hd > o.z_o + o.z_inv + (o.tau * o.y_max * u / 2))
      (omega Hu Hd * Hu + (1 - omega Hu Hd) * Hd > o.z_o + o.z_inv) (Hd ≥ Hu ∧ o.unidir = true)
      (-o.z_inv - o.z_o - o.tau * o.y_max * u / 2) (-o.z_inv - o.z_o) := by
  unfold orificeCoef orificeBy
  rfl

theorem upper_eq (Hu Hd : ℝ) : omega Hu Hd * Hu + (1 - omega Hu Hd) * Hd = max Hu Hd := by
  unfold omega; split_ifs with h
  · rw [max_eq_left h]; ring
  · rw [max_eq_right (not_le.mp h).le]; ring

theorem lower_eq (Hu Hd : ℝ) : (1 - omega Hu Hd) * Hu + omega Hu Hd * Hd = min Hu Hd := by
  unfold omega; split_ifs with h
  · rw [min_eq_right h]; ring
  · rw [min_eq_left (not_le.mp h).le]; ring

/-- No head at a threshold of the orifice, the two heads different and water flowing. -/
structure AwayOrifice (Q Hu Hd u : ℝ) (o : Orifice) : Prop where
  Q : Q ≠ 0
  H : Hu ≠ Hd
  top : max Hu Hd ≠ o.z_o + o.z_inv + o.tau * o.y_max * u
  mid : min Hu Hd ≠ o.z_o + o.z_inv + o.tau * o.y_max * u / 2
  bottom : max Hu Hd ≠ o.z_o + o.z_inv

theorem orificeCoef_to {oldN : ι → Lin} {γN HuN HdN uN : ι → ℝ} {old : Lin} {γ Q Hu Hd u : ℝ} {o : Orifice}
    (cγ : Tendsto γN l (𝓝 γ)) (cHu : Tendsto HuN l (𝓝 Hu)) (cHd : Tendsto HdN l (𝓝 Hd))
    (cu : Tendsto uN l (𝓝 u)) (aw : AwayOrifice Q Hu Hd u o) :
    LinTo l (fun t => orificeCoef (oldN t) (γN t) (HuN t) (HdN t) (uN t) o) (orificeCoef old γ Hu Hd u o) := by
  have c0 := gt_to (cHu.max cHd) ((cu.const_mul (o.tau * o.y_max)).const_add (o.z_o + o.z_inv)) aw.top
  have c1 := gt_to (cHu.min cHd) (((cu.const_mul (o.tau * o.y_max)).div_const 2).const_add (o.z_o + o.z_inv)) aw.mid
  have c2 := gt_to (cHu.max cHd) (tendsto_const_nhds (x := o.z_o + o.z_inv)) aw.bottom
  have cω := omega_to cHu cHd aw.H
  have ce : Tendsto (fun t => -o.z_inv - o.z_o - o.tau * o.y_max * uN t / 2) l (𝓝 (-o.z_inv - o.z_o - o.tau * o.y_max * u / 2)) :=
    ((cu.const_mul (o.tau * o.y_max)).div_const 2).const_sub _
  simp only [orificeCoef_by, upper_eq, lower_eq]
  refine LinTo.congr (aN := fun t => orificeBy (oldN t) (γN t) (omega Hu Hd) (sgn Hu Hd)
    (max Hu Hd > o.z_o + o.z_inv + (o.tau * o.y_max * u)) (min Hu Hd > o.z_o + o.z_inv + (o.tau * o.y_max * u / 2))
    (max Hu Hd > o.z_o + o.z_inv) (Hd ≥ Hu ∧ o.unidir = true) (-o.z_inv - o.z_o - o.tau * o.y_max * uN t / 2)
    (-o.z_inv - o.z_o)) ?_ ?_
  · generalize (max Hu Hd > o.z_o + o.z_inv + (o.tau * o.y_max * u)) = p0
    generalize (min Hu Hd > o.z_o + o.z_inv + (o.tau * o.y_max * u / 2)) = p1
    generalize (max Hu Hd > o.z_o + o.z_inv) = p2
    generalize (Hd ≥ Hu ∧ o.unidir = true) = p3
    unfold orificeBy
    by_cases h0 : p0 <;> by_cases h1 : p1 <;> by_cases h2 : p2 <;> by_cases h3 : p3 <;>
      simp only [h0, h1, h2, h3, not_true_eq_false, not_false_eq_true, and_true, and_false, or_true, or_false,
        and_self, if_true, if_false] <;>
      first
        | exact LinTo.const _
        | exact LinTo.both cγ
        | exact LinTo.one _ _ cγ ce
        | exact LinTo.one _ _ cγ tendsto_const_nhds
  · filter_upwards [c0, c1, c2, cω] with t h0 h1 h2 h3
    rw [h0, h1, h2, h3.1, h3.2.1, h3.2.2]

theorem orifice_to {oldN : ι → Lin} {QN AN HuN HdN uN : ι → ℝ} {old : Lin} {g Q A C Hu Hd u : ℝ} {o : Orifice}
    (cQ : Tendsto QN l (𝓝 Q)) (cA : Tendsto AN l (𝓝 A)) (cHu : Tendsto HuN l (𝓝 Hu)) (cHd : Tendsto HdN l (𝓝 Hd))
    (cu : Tendsto uN l (𝓝 u)) (aw : AwayOrifice Q Hu Hd u o) :
    LinTo l (fun t => orificeLin (oldN t) g (QN t) (AN t) C (HuN t) (HdN t) (uN t) o) (orificeLin old g Q A C Hu Hd u o) := by
  have cγ : Tendsto (fun t => gammaO (QN t) (AN t) C g) l (𝓝 (gammaO Q A C g)) := by
    simp only [gammaO, safeDivide_eq]
    exact ((cA.pow 2).const_mul _).div cQ.abs (abs_ne_zero.mpr aw.Q)
  exact orificeCoef_to cγ cHu cHd cu aw

/-- No head at the crest of the weir, the two heads different and water flowing. -/
structure AwayWeir (Q Hu Hd u : ℝ) (w : Weir) : Prop where
  Q : Q ≠ 0
  H : Hu ≠ Hd
  high : max Hu Hd ≠ w.z_w + w.z_inv + (1 - u) * w.y_max
  low : min Hu Hd ≠ w.z_w + w.z_inv + (1 - u) * w.y_max

open Classical in
/-- Head on the weir by the values of its conditions. -/
noncomputable def headBy (c0 c1 : Prop) (d e : ℝ) : ℝ := |if c0 ∧ c1 then d else if c0 then e else 0|

theorem weirHead_by (Hu Hd u : ℝ) (w : Weir) : weirHead Hu Hd u w =
    headBy (omega Hu Hd * Hu + (1 - omega Hu Hd) * Hd > w.z_w + w.z_inv + (1 - u) * w.y_max)
      ((1 - omega Hu Hd) * Hu + omega Hu Hd * Hd > w.z_w + w.z_inv + (1 - u) * w.y_max) (Hu - Hd)
      (omega Hu Hd * Hu + (1 - omega Hu Hd) * Hd + (-w.z_inv - w.z_w - (1 - u) * w.y_max)) := by
  unfold weirHead headBy
  rfl

open Classical in
/-- The relation of a weir by the values of its conditions. -/
noncomputable def weirBy (old : Lin) (γ ω s : ℝ) (c0 c1 : Prop) (e : ℝ) : Lin :=
  if ¬c0 then ⟨0, 0, 0⟩
  else if c0 ∧ ¬c1 then ⟨γ * ω * s, γ * (1 - ω) * s, γ * s * e⟩
  else if c0 ∧ c1 then ⟨γ, -γ, 0⟩ else old

theorem weirLin_by (old : Lin) (Q Hu Hd u : ℝ) (w : Weir) : weirLin old Q Hu Hd u w =
    weirBy old (gammaW Q (weirHead Hu Hd u w) w) (omega Hu Hd) (sgn Hu Hd)
      (omega Hu Hd * Hu + (1 - omega Hu Hd) * Hd > w.z_w + w.z_inv + (1 - u) * w.y_max)
      ((1 - omega Hu Hd) * Hu + omega Hu Hd * Hd > w.z_w + w.z_inv + (1 - u) * w.y_max)
      (-w.z_inv - w.z_w - (1 - u) * w.y_max) := by
  unfold weirLin weirBy
  rfl

theorem weir_to {oldN : ι → Lin} {QN HuN HdN uN : ι → ℝ} {old : Lin} {Q Hu Hd u : ℝ} {w : Weir}
    (cQ : Tendsto QN l (𝓝 Q)) (cHu : Tendsto HuN l (𝓝 Hu)) (cHd : Tendsto HdN l (𝓝 Hd))
    (cu : Tendsto uN l (𝓝 u)) (aw : AwayWeir Q Hu Hd u w) :
    LinTo l (fun t => weirLin (oldN t) (QN t) (HuN t) (HdN t) (uN t) w) (weirLin old Q Hu Hd u w) := by
  have cr : Tendsto (fun t => w.z_w + w.z_inv + (1 - uN t) * w.y_max) l (𝓝 (w.z_w + w.z_inv + (1 - u) * w.y_max)) :=
    ((cu.const_sub 1).mul_const _).const_add _
  have ce : Tendsto (fun t => -w.z_inv - w.z_w - (1 - uN t) * w.y_max) l (𝓝 (-w.z_inv - w.z_w - (1 - u) * w.y_max)) :=
    ((cu.const_sub 1).mul_const _).const_sub _
  have c0 := gt_to (cHu.max cHd) cr aw.high
  have c1 := gt_to (cHu.min cHd) cr aw.low
  have cω := omega_to cHu cHd aw.H
  have ch : Tendsto (fun t => weirHead (HuN t) (HdN t) (uN t) w) l (𝓝 (weirHead Hu Hd u w)) := by
    simp only [weirHead_by, upper_eq, lower_eq]
    refine Tendsto.congr' (f₁ := fun t => headBy (max Hu Hd > w.z_w + w.z_inv + (1 - u) * w.y_max)
      (min Hu Hd > w.z_w + w.z_inv + (1 - u) * w.y_max) (HuN t - HdN t)
      (max (HuN t) (HdN t) + (-w.z_inv - w.z_w - (1 - uN t) * w.y_max))) ?_ ?_
    · filter_upwards [c0, c1] with t h0 h1
      rw [h0, h1]
    · generalize (max Hu Hd > w.z_w + w.z_inv + (1 - u) * w.y_max) = p0
      generalize (min Hu Hd > w.z_w + w.z_inv + (1 - u) * w.y_max) = p1
      unfold headBy
      by_cases h0 : p0 <;> by_cases h1 : p1 <;>
        simp only [h0, h1, and_true, and_false, and_self, if_true, if_false]
      · exact (cHu.sub cHd).abs
      · exact ((cHu.max cHd).add ce).abs
      all_goals exact tendsto_const_nhds
  have cγ : Tendsto (fun t => gammaW (QN t) (weirHead (HuN t) (HdN t) (uN t) w) w) l (𝓝 (gammaW Q (weirHead Hu Hd u w) w)) := by
    simp only [gammaW, safeDivide_eq, weirConv]
    exact Tendsto.div (((ch.const_mul _).add ((ch.pow 2).const_mul _)).pow 2) cQ.abs (abs_ne_zero.mpr aw.Q)
  simp only [weirLin_by, upper_eq, lower_eq]
  refine LinTo.congr (aN := fun t => weirBy (oldN t) (gammaW (QN t) (weirHead (HuN t) (HdN t) (uN t) w) w) (omega Hu Hd)
    (sgn Hu Hd) (max Hu Hd > w.z_w + w.z_inv + (1 - u) * w.y_max) (min Hu Hd > w.z_w + w.z_inv + (1 - u) * w.y_max)
    (-w.z_inv - w.z_w - (1 - uN t) * w.y_max)) ?_ ?_
  · generalize (max Hu Hd > w.z_w + w.z_inv + (1 - u) * w.y_max) = p0
    generalize (min Hu Hd > w.z_w + w.z_inv + (1 - u) * w.y_max) = p1
    unfold weirBy
    by_cases h0 : p0 <;> by_cases h1 : p1 <;>
      simp only [h0, h1, not_true_eq_false, not_false_eq_true, and_true, and_false, and_self, if_true, if_false] <;>
      first
        | exact LinTo.const _
        | exact LinTo.both cγ
        | exact LinTo.one _ _ cγ ce
  · filter_upwards [c0, c1, cω] with t h0 h1 h3
    rw [h0, h1, h3.1, h3.2.1]

/-- The inlet neither just wet nor the lift at an end of the pump's range, and water flowing. -/
structure AwayPump (Q Hu Hd : ℝ) (p : Pump) : Prop where
  Q : Q ≠ 0
  b : p.b ≠ 0
  inlet : Hu ≠ p.z_inv + p.z_p
  low : Hd - Hu ≠ p.dHmin
  high : Hd - Hu ≠ p.dHmax

open Classical in
/-- The relation of a pump by the values of its conditions. -/
noncomputable def pumpBy (old : Lin) (γ a d : ℝ) (c0 c1 : Prop) : Lin :=
  if ¬c0 then ⟨0, 0, 0⟩
  else if c0 ∧ ¬c1 then ⟨0, 0, γ * (a - d)⟩
  else if c0 ∧ c1 then ⟨γ, -γ, γ * a⟩ else old

theorem pumpLin_by (old : Lin) (Q Hu Hd u : ℝ) (p : Pump) : pumpLin old Q Hu Hd u p =
    pumpBy old (gammaP Q u p) p.a (pumpHead Hu Hd p) (Hu > p.z_inv + p.z_p)
      (Hd - Hu > p.dHmin ∧ Hd - Hu < p.dHmax) := by
  unfold pumpLin pumpBy
  rfl

theorem pump_to {oldN : ι → Lin} {QN HuN HdN uN : ι → ℝ} {old : Lin} {Q Hu Hd u : ℝ} {p : Pump}
    (cQ : Tendsto QN l (𝓝 Q)) (cHu : Tendsto HuN l (𝓝 Hu)) (cHd : Tendsto HdN l (𝓝 Hd))
    (cu : Tendsto uN l (𝓝 u)) (aw : AwayPump Q Hu Hd p) :
    LinTo l (fun t => pumpLin (oldN t) (QN t) (HuN t) (HdN t) (uN t) p) (pumpLin old Q Hu Hd u p) := by
  have cγ : Tendsto (fun t => gammaP (QN t) (uN t) p) l (𝓝 (gammaP Q u p)) := by
    simp only [gammaP, safeDivide_eq]
    have q := abs_pos.mpr aw.Q
    exact cu.div ((cQ.abs.rpow_const (Or.inl q.ne')).const_mul _) (mul_ne_zero aw.b (Real.rpow_pos_of_pos q _).ne')
  have cd := cHd.sub cHu
  have e : ∀ d : ℝ, (let d := if d > p.dHmax then p.dHmax else d
      if d < p.dHmin then p.dHmin else d) = max (min d p.dHmax) p.dHmin := by
    intro d
    have : (if d > p.dHmax then p.dHmax else d) = min d p.dHmax := by
      split_ifs with h
      · exact (min_eq_right (le_of_lt h)).symm
      · exact (min_eq_left (not_lt.mp h)).symm
    simp only [this]
    split_ifs with h
    · exact (max_eq_right h.le).symm
    · exact (max_eq_left (not_lt.mp h)).symm
  have ch : Tendsto (fun t => pumpHead (HuN t) (HdN t) p) l (𝓝 (pumpHead Hu Hd p)) := by
    have q : ∀ a b, pumpHead a b p = max (min (b - a) p.dHmax) p.dHmin := fun a b => e (b - a)
    simp only [q]
    exact (cd.min tendsto_const_nhds).max tendsto_const_nhds
  have c0 := gt_to cHu (tendsto_const_nhds (x := p.z_inv + p.z_p)) aw.inlet
  have c1 := gt_to cd (tendsto_const_nhds (x := p.dHmin)) aw.low
  have c2 := gt_to (tendsto_const_nhds (x := p.dHmax)) cd aw.high.symm
  simp only [pumpLin_by]
  refine LinTo.congr (aN := fun t => pumpBy (oldN t) (gammaP (QN t) (uN t) p) p.a (pumpHead (HuN t) (HdN t) p)
    (Hu > p.z_inv + p.z_p) (Hd - Hu > p.dHmin ∧ Hd - Hu < p.dHmax)) ?_ ?_
  · generalize (Hu > p.z_inv + p.z_p) = p0
    generalize (Hd - Hu > p.dHmin ∧ Hd - Hu < p.dHmax) = p1
    unfold pumpBy
    by_cases h0 : p0 <;> by_cases h1 : p1 <;>
      simp only [h0, h1, not_true_eq_false, not_false_eq_true, and_true, and_false, and_self, if_true, if_false] <;>
      first
        | exact LinTo.const _
        | exact ⟨cγ, cγ.neg, cγ.mul_const _⟩
        | exact ⟨tendsto_const_nhds, tendsto_const_nhds, cγ.mul (ch.const_sub _)⟩
  · filter_upwards [c0, c1, c2] with t h0 h1 h2
    rw [h0, h1]
    simp only [gt_iff_lt] at h2
    rw [h2]

/-! ### C178 -/

/-- **C178 (away from thresholds).** If the states, sections, inflows, prescribed heads and step sizes of steps tend to those
of a step, no head of which is exactly at the invert of a pipe end, then the results of the steps tend to its result: heads
of superjunctions, depths of junctions, flows of links and of both ends of superlinks. Each step may use any arrays left by
earlier ones. Controls enter by their linearised relations, which have to converge. -/
theorem C178_continuous_partial (c : m.Consistent) (st : StartTables m) (psN : ∀ t, PhysicalStep m (gN t) (iN t))
    (ps : PhysicalStep m geo inp) (cwN : ∀ t, CleanWork m (wN t).mats) (cw : CleanWork m wk.mats)
    (hg : GeoTo m l gN geo) (hi : InputsTo m l iN sN inp s) (hp : StateTo m l pN prev) (hs : StateTo m l sN s)
    (aw : ∀ k, k < m.ix.NK → AwayEnds m geo s k)
    (lo : ∀ o, o < m.n_o → LinTo l (fun t => m.oLin (gN t) (iN t) (wN t) (sN t) o) (m.oLin geo inp wk s o))
    (lw : ∀ o, o < m.n_w → LinTo l (fun t => m.wLin (iN t) (wN t) (sN t) o) (m.wLin inp wk s o))
    (lp : ∀ o, o < m.n_p → LinTo l (fun t => m.pLin (iN t) (wN t) (sN t) o) (m.pLin inp wk s o))
    (pN' : ∀ t, Pass m (gN t) (iN t) (wN t) (pN t) (sN t) (cN t) (xN t)) (p : Pass m geo inp wk prev s co x) :
    let new := fun t => m.advance (gN t) (iN t) (wN t) (sN t) (cN t) (xN t)
    let lim := m.advance geo inp wk s co x
    (∀ i, i < m.M → Tendsto (fun t => (new t).H i) l (𝓝 (lim.H i))) ∧
    ∀ k, k < m.ix.NK →
      (∀ j, j ≤ m.ix.nk k → Tendsto (fun t => (new t).h (m.ix.I_1k k + j)) l (𝓝 (lim.h (m.ix.I_1k k + j)))) ∧
      (∀ j, j < m.ix.nk k → Tendsto (fun t => (new t).Q (m.ix.i_1k k + j)) l (𝓝 (lim.Q (m.ix.i_1k k + j)))) ∧
      Tendsto (fun t => (new t).Qu k) l (𝓝 (lim.Qu k)) ∧ Tendsto (fun t => (new t).Qd k) l (𝓝 (lim.Qd k)) := by
  intro new lim
  have cc := fun k (hk : k < m.ix.NK) => coef_to c st psN ps hg hi hp hs (fun t => (pN' t).coefs) p.coefs hk
  have ph := fun k (hk : k < m.ix.NK) => physical c ps p.coefs hk
  have hr := fun k (hk : k < m.ix.NK) => endRec_to (wN := wN) (wk := wk) c hk (cc k hk) (ph k hk)
  have hh := fun k (hk : k < m.ix.NK) => headCoef_to (sN := sN) c ps.g_pos hg hs hk (aw k hk)
  have D0 := fun k (hk : k < m.ix.NK) =>
    (lt_of_lt_of_le one_pos (DkStar_ge_one (step_endSigns (wk := wk) c ps p.coefs hk) (step_headSigns (cur := s) ps hk))).ne'
  have fl := fun k (hk : k < m.ix.NK) => flow_to (hr k hk) (hh k hk) (D0 k hk)
  have cn := net_to (wN := wN) (wk := wk) (cN := cN) (co := co) c ps.dt_pos.ne' hg hi hs aw fl lo lw lp
  have cx : ∀ i, i < m.M → Tendsto (fun t => xN t i) l (𝓝 (x i)) :=
    solution_to cn (fun _ => rfl) (fun _ => rfl) (fun t => (psN t).dt_pos) ps.dt_pos hi.dt (fun t => (cwN t).mats) cw.mats
      (fun t => signed c (psN t) (pN' t).coefs) (fun _ => wired c) (wired c) ps.As hp.H hi.Q_in hi.H_bc
      (fun t => (pN' t).solve) p.solve
  have cH : ∀ i, i < m.M → Tendsto (fun t => (new t).H i) l (𝓝 (lim.H i)) := fun i hi =>
    ((cx i hi).max tendsto_const_nhds).min tendsto_const_nhds
  refine ⟨cH, fun k hk => ?_⟩
  have f := fl k hk
  have yu := cH _ (c.Ju k hk)
  have yd := cH _ (c.Jd k hk)
  have cQu : Tendsto (fun t => (new t).Qu k) l (𝓝 (lim.Qu k)) := ((f.au.mul yu).add (f.bu.mul yd)).add f.cu
  have cQd : Tendsto (fun t => (new t).Qd k) l (𝓝 (lim.Qd k)) := ((f.ad.mul yu).add (f.bd.mul yd)).add f.cd
  have hu := (((hh k hk).kappa_u.mul cQu).add ((hh k hk).lam_u.mul yu)).add (hh k hk).mu_u
  have hd := (((hh k hk).kappa_d.mul cQd).add ((hh k hk).lam_d.mul yd)).add (hh k hk).mu_d
  have n1 := c.layout.pos k hk
  have fw := fwd_to (cc k hk) (ph k hk) (fun t => sweptFwd_rel m.g (cN t) m.ix (wN t).f c.layout hk)
    (sweptFwd_rel m.g co m.ix wk.f c.layout hk)
  have bw := bwd_to (cc k hk) (ph k hk) (fun t => sweptBwd_rel m.g (cN t) m.ix (wN t).b c.layout hk)
    (sweptBwd_rel m.g co m.ix wk.b c.layout hk)
  have sg := bwd_signs (ph k hk) (sweptBwd_rel m.g co m.ix wk.b c.layout hk)
  have key := int_to n1 (fun j hj => (fw j hj).2.1) (fun j hj => (fw j hj).2.2.1) (fun j hj => (fw j hj).2.2.2)
    (fun j hj => (bw j hj).2.1) (fun j hj => (bw j hj).2.2.1) (fun j hj => (bw j hj).2.2.2)
    (fun j hj => (sg j hj).2.2.1.ne') hu hd
    (fun t => Sweep.numbaSolveInternals_spec (sweptFwd m.g (cN t) m.ix (wN t).f) (sweptBwd m.g (cN t) m.ix (wN t).b) m.min_depth
      m.max_depth_k
      (fun k => huk (m.endRec (wN t) (cN t) k) (m.headCoef (gN t) (sN t) k) (clipHead m.z_inv m.max_depth (xN t) (m.Ju k)) (clipHead m.z_inv m.max_depth (xN t) (m.Jd k)))
      (fun k => hdk (m.endRec (wN t) (cN t) k) (m.headCoef (gN t) (sN t) k) (clipHead m.z_inv m.max_depth (xN t) (m.Ju k)) (clipHead m.z_inv m.max_depth (xN t) (m.Jd k)))
      m.ix.i_1k m.ix.I_1k m.ix.nk m.ix.NK m.back ⟨(sN t).h, (sN t).Q⟩ c.layout k hk)
    (Sweep.numbaSolveInternals_spec (sweptFwd m.g co m.ix wk.f) (sweptBwd m.g co m.ix wk.b) m.min_depth
      m.max_depth_k
      (fun k => huk (m.endRec wk co k) (m.headCoef geo s k) (clipHead m.z_inv m.max_depth x (m.Ju k)) (clipHead m.z_inv m.max_depth x (m.Jd k)))
      (fun k => hdk (m.endRec wk co k) (m.headCoef geo s k) (clipHead m.z_inv m.max_depth x (m.Ju k)) (clipHead m.z_inv m.max_depth x (m.Jd k)))
      m.ix.i_1k m.ix.I_1k m.ix.nk m.ix.NK m.back ⟨s.h, s.Q⟩ c.layout k hk)
  refine ⟨fun j hj => ?_, key.2, cQu, cQd⟩
  have e : ∀ a : ℝ, (if a < m.min_depth then m.min_depth else a) = max a m.min_depth := by
    intro a; split_ifs with h
    · exact (max_eq_right h.le).symm
    · exact (max_eq_left (not_lt.mp h)).symm
  show Tendsto (fun t => if _ < m.min_depth then m.min_depth else _) l (𝓝 (if _ < m.min_depth then m.min_depth else _))
  simp only [e]
  exact (key.1 j hj).max tendsto_const_nhds

/-- The flows, openings and areas of controls tend to those of the limit. -/
structure CtrlTo (m : Model) (l : Filter ι) (gN : ι → Geo) (iN : ι → Inputs) (sN : ι → Hyd) (g : Geo) (i : Inputs) (s : Hyd) : Prop where
  Qo : ∀ o, o < m.n_o → Tendsto (fun t => (sN t).Qo o) l (𝓝 (s.Qo o))
  Qw : ∀ o, o < m.n_w → Tendsto (fun t => (sN t).Qw o) l (𝓝 (s.Qw o))
  Qp : ∀ o, o < m.n_p → Tendsto (fun t => (sN t).Qp o) l (𝓝 (s.Qp o))
  u_o : ∀ o, o < m.n_o → Tendsto (fun t => (iN t).u_o o) l (𝓝 (i.u_o o))
  u_w : ∀ o, o < m.n_w → Tendsto (fun t => (iN t).u_w o) l (𝓝 (i.u_w o))
  u_p : ∀ o, o < m.n_p → Tendsto (fun t => (iN t).u_p o) l (𝓝 (i.u_p o))
  Ao : ∀ o, o < m.n_o → Tendsto (fun t => (gN t).Ao o) l (𝓝 (g.Ao o))

/-- **C178 (controls away from thresholds).** The linearised relation of an orifice, weir or pump with water flowing, whose
heads are neither equal nor at one of its thresholds, depends continuously on heads, flow and opening, whatever an earlier
step left in the coefficient arrays. -/
theorem C178_controls (c : m.Consistent) (hs : StateTo m l sN s) (hc : CtrlTo m l gN iN sN geo inp s) :
    (∀ o, o < m.n_o → AwayOrifice (s.Qo o) (s.H (m.Juo o)) (s.H (m.Jdo o)) (inp.u_o o) (m.orifice o) →
      LinTo l (fun t => m.oLin (gN t) (iN t) (wN t) (sN t) o) (m.oLin geo inp wk s o)) ∧
    (∀ w, w < m.n_w → AwayWeir (s.Qw w) (s.H (m.Juw w)) (s.H (m.Jdw w)) (inp.u_w w) (m.weir w) →
      LinTo l (fun t => m.wLin (iN t) (wN t) (sN t) w) (m.wLin inp wk s w)) ∧
    ∀ q, q < m.n_p → AwayPump (s.Qp q) (s.H (m.Jup q)) (s.H (m.Jdp q)) (m.pump q) →
      LinTo l (fun t => m.pLin (iN t) (wN t) (sN t) q) (m.pLin inp wk s q) :=
  ⟨fun o ho a => orifice_to (hc.Qo o ho) (hc.Ao o ho) (hs.H _ (c.Juo o ho)) (hs.H _ (c.Jdo o ho)) (hc.u_o o ho) a,
    fun w hw a => weir_to (hc.Qw w hw) (hs.H _ (c.Juw w hw)) (hs.H _ (c.Jdw w hw)) (hc.u_w w hw) a,
    fun q hq a => pump_to (hc.Qp q hq) (hs.H _ (c.Jup q hq)) (hs.H _ (c.Jdp q hq)) (hc.u_p q hq) a⟩

/-- Depth at the upstream end of a superlink that was at rest. -/
theorem end_depth (c : m.Consistent) {k : ℕ} (hk : k < m.ix.NK) (h0 : s.Qu k = 0) :
    (m.advance geo inp wk s co x).h (m.ix.I_1k k)
      = max (theta (s.H (m.Ju k)) (m.z_uk k) * ((m.advance geo inp wk s co x).H (m.Ju k) - m.z_uk k)) m.min_depth := by
  have R := Sweep.numbaSolveInternals_spec (sweptFwd m.g co m.ix wk.f) (sweptBwd m.g co m.ix wk.b) m.min_depth
    m.max_depth_k (fun k => huk (m.endRec wk co k) (m.headCoef geo s k) (clipHead m.z_inv m.max_depth x (m.Ju k))
      (clipHead m.z_inv m.max_depth x (m.Jd k)))
    (fun k => hdk (m.endRec wk co k) (m.headCoef geo s k) (clipHead m.z_inv m.max_depth x (m.Ju k))
      (clipHead m.z_inv m.max_depth x (m.Jd k))) m.ix.i_1k m.ix.I_1k m.ix.nk m.ix.NK m.back ⟨s.h, s.Q⟩ c.layout k hk
  have h := R.h0
  simp only [add_zero] at h
  have e : ∀ a : ℝ, (if a < m.min_depth then m.min_depth else a) = max a m.min_depth := by
    intro a; split_ifs with h
    · exact (max_eq_right h.le).symm
    · exact (max_eq_left (not_lt.mp h)).symm
  refine (e _).trans ?_
  rw [h]
  congr 1
  have k0 : (m.headCoef geo s k).kappa_u = 0 := by
    show safeDivide (-|s.Qu k| * m.C_uk k) _ = 0
    rw [h0, safeDivide_eq]; simp
  unfold huk
  rw [k0]
  show 0 * _ + theta _ _ * clipHead m.z_inv m.max_depth x (m.Ju k) + -(theta _ _) * _
    = theta _ _ * (clipHead m.z_inv m.max_depth x (m.Ju k) - _)
  ring

/-- **C178 violated (pipe ends).** The depth at the end of a pipe at rest follows the new head of a superjunction with
prescribed head if the old head was exactly at the pipe's invert, and is the minimum depth if it was below, however little:
the result jumps by the depth of the new water above the invert. -/
theorem C178_invert_jump {geo' : Geo} {s' : Hyd} {wk' : Work} {co' : Coef ℝ} {x' : ℕ → ℝ} (c : m.Consistent)
    (cw : CleanWork m wk.mats) (mn : 0 ≤ m.min_depth) {Hb : ℕ → ℝ} (hb : inp.H_bc = some Hb)
    {k : ℕ} (hk : k < m.ix.NK) (b : m.bc (m.Ju k) = true)
    (lim : m.z_inv (m.Ju k) ≤ Hb (m.Ju k) ∧ Hb (m.Ju k) ≤ m.z_inv (m.Ju k) + m.max_depth (m.Ju k))
    (up : m.z_uk k + m.min_depth ≤ Hb (m.Ju k)) (at0 : s.H (m.Ju k) = m.z_uk k) (below : s'.H (m.Ju k) < m.z_uk k)
    (rest : s.Qu k = 0) (rest' : s'.Qu k = 0)
    (p : Pass m geo inp wk prev s co x) :
    (m.advance geo inp wk s co x).h (m.ix.I_1k k) = Hb (m.Ju k) - m.z_uk k ∧
    (m.advance geo' inp wk' s' co' x').h (m.ix.I_1k k) = m.min_depth := by
  have H : (m.advance geo inp wk s co x).H (m.Ju k) = Hb (m.Ju k) := by
    rw [C08_step c cw p _ (c.Ju k hk) b, hb]
    simp only [Option.getD_some, max_eq_left lim.1, min_eq_left lim.2]
  refine ⟨?_, ?_⟩
  · rw [end_depth c hk rest, H]
    unfold theta
    rw [if_pos at0.ge, one_mul, max_eq_left (by linarith)]
  · rw [end_depth c hk rest']
    unfold theta
    rw [if_neg (not_le.mpr below), zero_mul, max_eq_right mn]

/-- **C178 violated (orifices).** The coefficient with which an orifice enters the head equations grows beyond all bounds as
its flow tends to zero, and is zero when its flow is zero. -/
theorem C178_orifice_jump {Ao Co g : ℝ} (hA : Ao ≠ 0) (hC : Co ≠ 0) (hg : 0 < g) :
    gammaO 0 Ao Co g = 0 ∧ Tendsto (fun Q => gammaO Q Ao Co g) (𝓝[≠] 0) atTop := by
  refine ⟨by simp [gammaO, safeDivide_eq], ?_⟩
  simp only [gammaO, safeDivide_eq, div_eq_mul_inv]
  refine Tendsto.const_mul_atTop (by positivity) (tendsto_inv_nhdsGT_zero.comp ?_)
  refine tendsto_nhdsWithin_iff.mpr ⟨?_, ?_⟩
  · have : Tendsto (fun Q : ℝ => |Q|) (𝓝 0) (𝓝 |0|) := continuous_abs.tendsto 0
    rw [abs_zero] at this
    exact this.mono_left nhdsWithin_le_nhds
  · filter_upwards [self_mem_nhdsWithin] with Q hQ
    exact abs_pos.mpr hQ

/-! ### Cases meeting the hypotheses -/

/-- The still pond with flows and depths slightly disturbed. -/
noncomputable def stirred (n : ℕ) : Hyd :=
  { exStill with Q := fun _ => 1 / ((n : ℝ) + 1), h := fun I => exStill.h I + 1 / ((n : ℝ) + 1) }

theorem stirred_to : StateTo (exModel false) atTop stirred exStill := by
  have q := tendsto_one_div_add_atTop_nhds_zero_nat (𝕜 := ℝ)
  refine ⟨fun _ _ => tendsto_const_nhds, fun k _ j _ => ?_, fun _ _ _ _ => q, fun _ _ => tendsto_const_nhds, fun _ _ => tendsto_const_nhds⟩
  have e := q.const_add (exStill.h ((exModel false).ix.I_1k k + j))
  rw [add_zero] at e
  exact e

/-- Steps from the disturbed ponds tend to the step from the still one, in all results. -/
example : ∃ (cN : ℕ → Coef ℝ) (xN : ℕ → ℕ → ℝ) (co : Coef ℝ) (x : ℕ → ℝ),
    Tendsto (fun n => ((exModel false).advance exGeo exInp exWork (stirred n) (cN n) (xN n)).Q 1) atTop
      (𝓝 (((exModel false).advance exGeo exInp exWork exStill co x).Q 1)) := by
  have C := exConsistent false
  have P := exPhysical false
  have W := exClean false
  have ex : ∀ n, ∃ co x, Pass (exModel false) exGeo exInp exWork (stirred n) (stirred n) co x := fun n =>
    C06_step_exists C P W (fun _ _ => Or.inl rfl)
  choose cN xN pN using ex
  obtain ⟨co, x, p⟩ := C06_step_exists (prev := exStill) (cur := exStill) C P W (fun _ _ => Or.inl rfl)
  have e : ∀ t o, (exModel false).pLin exInp exWork (stirred t) o = (exModel false).pLin exInp exWork exStill o := by
    intro t o
    simp only [Model.pLin, stirred]
  have e1 : ∀ t o, (exModel false).oLin exGeo exInp exWork (stirred t) o = (exModel false).oLin exGeo exInp exWork exStill o := by
    intro t o
    simp only [Model.oLin, stirred]
  have e2 : ∀ t o, (exModel false).wLin exInp exWork (stirred t) o = (exModel false).wLin exInp exWork exStill o := by
    intro t o
    simp only [Model.wLin, stirred]
  have k := C178_continuous_partial (l := atTop) (gN := fun _ => exGeo) (iN := fun _ => exInp) (wN := fun _ => exWork) 
    (pN := stirred) (prev := exStill) (sN := stirred) (s := exStill) C (exStartTables false) (fun _ => P) P (fun _ => W) W
    ⟨fun _ _ _ _ => tendsto_const_nhds, fun _ _ _ _ => tendsto_const_nhds, fun _ _ _ _ => tendsto_const_nhds, fun _ _ _ _ => tendsto_const_nhds,
      fun _ _ => tendsto_const_nhds, fun _ _ => tendsto_const_nhds, fun _ _ => tendsto_const_nhds, fun _ _ => tendsto_const_nhds, fun _ _ => tendsto_const_nhds⟩
    ⟨tendsto_const_nhds, fun _ _ => tendsto_const_nhds, fun _ _ _ _ => tendsto_const_nhds, fun _ _ => tendsto_const_nhds⟩
    stirred_to stirred_to
    (fun k _ => ⟨by norm_num [exModel, exStill], by norm_num [exModel, exStill], by norm_num [exGeo], by norm_num [exGeo]⟩)
    (fun o _ => (LinTo.const _).congr (Eventually.of_forall fun t => e1 t o))
    (fun o _ => (LinTo.const _).congr (Eventually.of_forall fun t => e2 t o)) (fun o _ => (LinTo.const _).congr (Eventually.of_forall fun t => e t o)) pN p
  exact ⟨cN, xN, co, x, (k.2 0 (by norm_num [exModel])).2.1 1 (by norm_num [exModel])⟩

/-- An orifice, a weir and a pump at work, away from their thresholds. -/
example : AwayOrifice 1 5 2 1 ⟨0, 0, 1, 1, false⟩ ∧ AwayWeir 1 5 2 1 ⟨1, 0, 1, 1, 1, 1, 1⟩ ∧
    AwayPump 1 3 5 ⟨0, 0, 5, 0, 5, 1, 1⟩ := by
  refine ⟨?_, ?_, ?_⟩ <;> constructor <;> norm_num

/-- The pond with its upper end, invert of the pipe 2, held. -/
noncomputable def heldTop : Model := { exModel false with bc := fun i => i == 0 }

/-- All heads of the pond at `H`. -/
noncomputable def level (H : ℝ) : Hyd := { exStill with H := fun _ => H }

/-- With the upper head raised to 5, the upper end of the pipe is 3 deep after the step if the head was 2, and empty if it was
2 − ε. -/
example (ε : ℝ) (he : 0 < ε) : ∃ co x co' x',
    Pass heldTop exGeo { exInp with H_bc := some fun _ => 5 } exWork (level 2) (level 2) co x ∧
    Pass heldTop exGeo { exInp with H_bc := some fun _ => 5 } exWork (level (2 - ε)) (level (2 - ε)) co' x' ∧
    (heldTop.advance exGeo { exInp with H_bc := some fun _ => 5 } exWork (level 2) co x).h 0 = 5 - 2 ∧
    (heldTop.advance exGeo { exInp with H_bc := some fun _ => 5 } exWork (level (2 - ε)) co' x').h 0 = 0.01 := by
  have C0 := exConsistent false
  have C : heldTop.Consistent :=
    ⟨C0.layout, C0.inN, C0.nodes, C0.Ju, C0.Jd, C0.Juo, C0.Jdo, C0.Juw, C0.Jdw, C0.Jup, C0.Jdp⟩
  have P : PhysicalStep heldTop exGeo { exInp with H_bc := some fun _ => 5 } := by
    constructor <;> intros <;> norm_num [heldTop, exModel, exGeo, exInp]
  have W : CleanWork heldTop exWork.mats := by
    constructor <;> constructor <;> intros <;> simp_all [exWork]
  obtain ⟨co, x, p⟩ := C06_step_exists (prev := level 2) (cur := level 2) C P W (fun _ _ => Or.inl rfl)
  obtain ⟨co', x', p'⟩ := C06_step_exists (prev := level (2 - ε)) (cur := level (2 - ε)) C P W (fun _ _ => Or.inl rfl)
  have k := C178_invert_jump (s' := level (2 - ε)) (geo' := exGeo) (wk' := exWork) (co' := co') (x' := x') C W
    (by norm_num [heldTop, exModel]) (Hb := fun _ => 5) rfl (k := 0) (by norm_num [heldTop, exModel]) rfl
    (by norm_num [heldTop, exModel]) (by norm_num [heldTop, exModel]) rfl
    (show 2 - ε < 2 by linarith) rfl rfl p
  exact ⟨co, x, co', x', p, p', k.1, k.2⟩

end Pipedream.Step
