import Verif.QualitySpec

/-! # The superjunction system of the water-quality step -/

set_option linter.unusedSectionVars false

namespace Pipedream.Quality

open Pipedream.Network Pipedream.Link Pipedream.Sweep

variable {K : Type*} [Field K] [LinearOrder K]

/-- Nothing outside the pattern of the network is stored in the matrices. -/
structure CleanMats (w : Wiring) (m : Mats K) : Prop where
  A : CleanA w.bc w.Ju w.Jd w.ix.NK m.A
  O : Clean w.bc w.Juo w.Jdo w.n_o m.O
  W : Clean w.bc w.Juw w.Jdw w.n_w m.W
  P : Clean w.bc w.Jup w.Jdp w.n_p m.P

theorem cleanMats_zero (w : Wiring) :
    CleanMats w (⟨fun _ _ => 0, fun _ _ => 0, fun _ _ => 0, fun _ _ => 0⟩ : Mats K) :=
  ⟨⟨fun _ _ _ _ => rfl⟩, ⟨fun _ _ _ _ => rfl, fun _ _ => rfl⟩, ⟨fun _ _ _ _ => rfl, fun _ _ => rfl⟩,
    ⟨fun _ _ _ _ => rfl, fun _ _ => rfl⟩⟩

/-- Diagonal of the superlink block. -/
def Fdiag (net : QNet K) (dt : K) (i : ℕ) : K :=
  (∑ k ∈ Finset.range net.ends.n, ((if net.ends.Ju k = i then -net.ends.kuj k else 0)
    + (if net.ends.Jd k = i then -net.ends.kdj k else 0)))
  + ((2 * net.V i - net.V_prev i) / dt + net.Kr i * net.V i)

theorem createA_eq (net : QNet K) (dt : K) (X : ℕ → ℕ → K)
    (hX : CleanA net.bc net.ends.Ju net.ends.Jd net.ends.n X) (r c : ℕ) (hr : r < net.M ∨ r ≠ c) :
    createA net dt (clearOffDiagonals net.bc net.ends.Ju net.ends.Jd net.ends.n X) r c
      = blockSpec net.bc 1 (Fdiag net dt) net.ends.Ju net.ends.Jd
          (fun k => -(net.ends.tau_u k * (-net.ends.Qu k * (1 - omegaGe (net.ends.Qu k)) + net.ends.Gu k)))
          (fun k => net.ends.rho_d k * (net.ends.Qd k * omegaGe (net.ends.Qd k) + net.ends.Gd k))
          net.ends.n r c := by
  unfold createA
  have hF : (fun i => addAt (addAt (fun _ => (0:K)) net.ends.Ju (fun k => -net.ends.kuj k) net.ends.n)
      net.ends.Jd (fun k => -net.ends.kdj k) net.ends.n i
      + ((2 * net.V i - net.V_prev i) / dt + net.Kr i * net.V i)) = Fdiag net dt := by
    funext i
    simp only [addAt_apply, Fdiag, zero_add]
    rw [← Finset.sum_add_distrib]
  simp only [hF]
  exact block_eq _ _ _ _ _ _ _ _ _ _ hX.off r c hr

/-- Flow out of superjunction `i` through one family of controls, from the assembled block. -/
theorem ctrls_row (bc : ℕ → Bool) (M n : ℕ) (Ju Jd : ℕ → ℕ) (Q x : ℕ → K)
    (hu : ∀ k, k < n → Ju k < M) (hd : ∀ k, k < n → Jd k < M) (i : ℕ) (hi : i < M) (hb : bc i = false) :
    ∑ j ∈ Finset.range M, specC bc (ctrls n Ju Jd Q) i j * x j = ctrlNet n Ju Jd Q x i := by
  rw [specC_row bc M (ctrls n Ju Jd Q) x hu hd i hi hb]
  have z : ∑ k ∈ Finset.range (ctrls n Ju Jd Q).n, ((if (ctrls n Ju Jd Q).Jd k = i then
      (ctrls n Ju Jd Q).chi k else 0) - (if (ctrls n Ju Jd Q).Ju k = i then (ctrls n Ju Jd Q).chi k else 0)) = 0 := by
    apply Finset.sum_eq_zero
    intro k _
    have : (ctrls n Ju Jd Q).chi k = 0 := rfl
    rw [this, ite_self, ite_self, sub_zero]
  rw [z, add_zero]
  simp only [Ctrls.inflow, Ctrls.Q, ctrls, ctrlNet, add_zero]
  rw [← Finset.sum_neg_distrib]
  apply Finset.sum_congr rfl
  intro k _
  have e : Q k * omegaGe (Q k) * x (Ju k) + Q k * (1 - omegaGe (Q k)) * x (Jd k)
      = flux (Q k) 0 (x (Ju k)) (x (Jd k)) := by
    unfold flux upwind omegaGe
    rcases lt_trichotomy (Q k) 0 with h | h | h
    · rw [if_neg (not_le.mpr h), if_neg (not_lt.mpr h.le)]; ring
    · simp [h]
    · rw [if_pos h.le, if_pos h]; ring
  rw [e]
  split_ifs <;> ring

theorem uflux_eq (Q G a b rho tau zeta : K) :
    Q * (omegaGe Q + (1 - omegaGe Q) * rho) * a + G * (1 - rho) * a
      - tau * (-Q * (1 - omegaGe Q) + G) * b - (-Q * (1 - omegaGe Q) + G) * zeta
      = flux Q G a (rho * a + tau * b + zeta) := by
  unfold flux upwind omegaGe
  rcases lt_trichotomy Q 0 with h | h | h
  · rw [if_neg (not_le.mpr h), if_neg (not_lt.mpr h.le)]; ring
  · subst h; simp only [le_refl, lt_irrefl, if_true, if_false]; ring
  · rw [if_pos h.le, if_pos h]; ring

theorem dflux_eq (Q G a b rho tau zeta : K) :
    Q * (tau * omegaGe Q + (1 - omegaGe Q)) * b + G * (tau - 1) * b
      + rho * (Q * omegaGe Q + G) * a + (Q * omegaGe Q + G) * zeta
      = flux Q G (rho * a + tau * b + zeta) b := by
  unfold flux upwind omegaGe
  rcases lt_trichotomy Q 0 with h | h | h
  · rw [if_neg (not_le.mpr h), if_neg (not_lt.mpr h.le)]; ring
  · subst h; simp only [le_refl, lt_irrefl, if_true, if_false]; ring
  · rw [if_pos h.le, if_pos h]; ring

section
variable {w : Wiring} {p : Params K} {y : Hydro K} {inp : Inputs K} {wk : Work K} {c : Conc K}

/-- Superjunction concentrations together with the end-stretch values implied by them. -/
def withEnds (w : Wiring) (p : Params K) (y : Hydro K) (inp : Inputs K) (wk : Work K) (c : Conc K)
    (x : ℕ → K) (I i : ℕ → K) : Conc K :=
  { j := x, I := I, i := i, u := rawU w p y inp wk c x, d := rawD w p y inp wk c x }

theorem stepLhs_eq (hm : CleanMats w wk.mats) (r q : ℕ) (hr : r < w.M) :
    stepLhs w p y inp wk c r q =
      blockSpec w.bc 1 (Fdiag (stepNet w p y inp wk c) y.dt) w.Ju w.Jd
          (fun k => -((stepNet w p y inp wk c).ends.tau_u k
            * (-y.Qu_up k * (1 - omegaGe (y.Qu_up k)) + (stepNet w p y inp wk c).ends.Gu k)))
          (fun k => (stepNet w p y inp wk c).ends.rho_d k
            * (y.Qd_dn k * omegaGe (y.Qd_dn k) + (stepNet w p y inp wk c).ends.Gd k)) w.ix.NK r q
      + specC w.bc (ctrls w.n_o w.Juo w.Jdo y.Qo) r q + specC w.bc (ctrls w.n_w w.Juw w.Jdw y.Qw) r q
      + specC w.bc (ctrls w.n_p w.Jup w.Jdp y.Qp) r q := by
  have eA := createA_eq (stepNet w p y inp wk c) y.dt wk.mats.A hm.A r q (Or.inl hr)
  have eO := ctrlBlock_eq w.bc w.M (ctrls w.n_o w.Juo w.Jdo y.Qo) wk.mats.O hm.O r q (Or.inl hr)
  have eW := ctrlBlock_eq w.bc w.M (ctrls w.n_w w.Juw w.Jdw y.Qw) wk.mats.W hm.W r q (Or.inl hr)
  have eP := ctrlBlock_eq w.bc w.M (ctrls w.n_p w.Jup w.Jdp y.Qp) wk.mats.P hm.P r q (Or.inl hr)
  unfold stepLhs systemMatrix
  by_cases h : (stepNet w p y inp wk c).orifices.n + (stepNet w p y inp wk c).weirs.n
      + (stepNet w p y inp wk c).pumps.n = 0
  · rw [if_pos h]
    simp only [stepNet, ctrls] at h
    have ho : w.n_o = 0 := by omega
    have hw : w.n_w = 0 := by omega
    have hp : w.n_p = 0 := by omega
    have z : ∀ C : Ctrls K, C.n = 0 → specC w.bc C r q = 0 := by
      intro C h0; simp [specC, blockSpec, Cdiag, h0]
    rw [z _ ho, z _ hw, z _ hp, add_zero, add_zero, add_zero]
    exact eA
  · rw [if_neg h, ← eO, ← eW, ← eP]
    congr 3

/-- The linear system of the step states exactly the specified superjunction balances and fixed
concentrations, in terms of the end-stretch values implied by the solution. -/
theorem solved_iff (W : Wired w) (hm : CleanMats w wk.mats) (x I i' : ℕ → K) :
    Solved w p y inp wk c x ↔
      (∀ i, i < w.M → w.bc i = true → x i = inp.c_bc.getD c.j i) ∧
      (∀ i, i < w.M → w.bc i = false → CellEq y.dt (y.V i) (y.V_prev i) (p.Krj i) (c.j i) (x i)
        (superNet w p y (withEnds w p y inp wk c x I i') i) (inp.Q_0j i * inp.c_0j i)) := by
  unfold Solved Solves
  rw [← forall₂_and]
  apply forall_congr'; intro i
  apply forall_congr'; intro hi
  rw [Finset.sum_congr rfl (fun j _ => by rw [stepLhs_eq hm i j hi])]
  by_cases hb : w.bc i = true
  · simp only [blockSpec, specC, hb, if_true, ite_self, add_zero, stepRhs, assembleB,
      Bool.true_eq_false, false_imp_iff, and_true, true_imp_iff, ite_mul, one_mul, zero_mul]
    rw [Finset.sum_ite_eq]
    simp only [Finset.mem_range, hi, if_true, stepNet, hb]
  · have hb' : w.bc i = false := by simpa using hb
    simp only [hb', Bool.false_eq_true, false_imp_iff, true_and, true_imp_iff]
    simp only [add_mul, Finset.sum_add_distrib]
    rw [ctrls_row w.bc w.M w.n_o _ _ _ x W.ou W.od i hi hb', ctrls_row w.bc w.M w.n_w _ _ _ x W.wu W.wd i hi hb',
      ctrls_row w.bc w.M w.n_p _ _ _ x W.pu W.pd i hi hb']
    simp only [blockSpec, hb', Bool.false_eq_true, if_false]
    rw [block_row w.M w.ix.NK _ _ _ _ _ _ i hi W.lu W.ld]
    simp only [CellEq, superNet, stepRhs, assembleB, assembleD, addAt_apply,
      zero_add, withEnds]
    have key : Fdiag (stepNet w p y inp wk c) y.dt i * x i
        + ∑ k ∈ Finset.range w.ix.NK, ((if w.Ju k = i then
            -((stepNet w p y inp wk c).ends.tau_u k * (-y.Qu_up k * (1 - omegaGe (y.Qu_up k))
              + (stepNet w p y inp wk c).ends.Gu k)) * x (w.Jd k) else 0)
          - (if w.Jd k = i then (stepNet w p y inp wk c).ends.rho_d k * (y.Qd_dn k * omegaGe (y.Qd_dn k)
              + (stepNet w p y inp wk c).ends.Gd k) * x (w.Ju k) else 0))
        - ((∑ k ∈ Finset.range w.ix.NK, if w.Ju k = i then
            (-y.Qu_up k * (1 - omegaGe (y.Qu_up k)) + (stepNet w p y inp wk c).ends.Gu k)
              * (stepNet w p y inp wk c).ends.zeta_u k else 0)
          + ∑ k ∈ Finset.range w.ix.NK, if w.Jd k = i then
            (y.Qd_dn k * omegaGe (y.Qd_dn k) + (stepNet w p y inp wk c).ends.Gd k)
              * (stepNet w p y inp wk c).ends.zeta_d k else 0)
        = (2 * y.V i - y.V_prev i) / y.dt * x i + p.Krj i * y.V i * x i
          + ∑ k ∈ Finset.range w.ix.NK, ((if w.Ju k = i then uFluxUp p y k (x (w.Ju k))
              (rawU w p y inp wk c x k) else 0)
            - (if w.Jd k = i then dFluxDn p y k (rawD w p y inp wk c x k) (x (w.Jd k)) else 0)) := by
      simp only [Fdiag]
      have hV : (stepNet w p y inp wk c).V = y.V := rfl
      have hVp : (stepNet w p y inp wk c).V_prev = y.V_prev := rfl
      have hK : (stepNet w p y inp wk c).Kr = p.Krj := rfl
      have hn : (stepNet w p y inp wk c).ends.n = w.ix.NK := rfl
      rw [hV, hVp, hK, hn, add_mul, Finset.sum_mul, add_comm (Finset.sum _ _), add_assoc, add_sub_assoc,
        ← Finset.sum_add_distrib, ← Finset.sum_add_distrib, ← Finset.sum_sub_distrib, add_mul]
      congr 1
      apply Finset.sum_congr rfl
      intro k _
      have eu := uflux_eq (y.Qu_up k) ((stepNet w p y inp wk c).ends.Gu k) (x (w.Ju k)) (x (w.Jd k))
        ((stepNet w p y inp wk c).ends.rho_u k) ((stepNet w p y inp wk c).ends.tau_u k)
        ((stepNet w p y inp wk c).ends.zeta_u k)
      have ed := dflux_eq (y.Qd_dn k) ((stepNet w p y inp wk c).ends.Gd k) (x (w.Ju k)) (x (w.Jd k))
        ((stepNet w p y inp wk c).ends.rho_d k) ((stepNet w p y inp wk c).ends.tau_d k)
        ((stepNet w p y inp wk c).ends.zeta_d k)
      have du : uFluxUp p y k (x (w.Ju k)) (rawU w p y inp wk c x k)
          = flux (y.Qu_up k) ((stepNet w p y inp wk c).ends.Gu k) (x (w.Ju k))
            ((stepNet w p y inp wk c).ends.rho_u k * x (w.Ju k)
              + (stepNet w p y inp wk c).ends.tau_u k * x (w.Jd k)
              + (stepNet w p y inp wk c).ends.zeta_u k) := rfl
      have dd : dFluxDn p y k (rawD w p y inp wk c x k) (x (w.Jd k))
          = flux (y.Qd_dn k) ((stepNet w p y inp wk c).ends.Gd k)
            ((stepNet w p y inp wk c).ends.rho_d k * x (w.Ju k)
              + (stepNet w p y inp wk c).ends.tau_d k * x (w.Jd k)
              + (stepNet w p y inp wk c).ends.zeta_d k) (x (w.Jd k)) := rfl
      rw [du, dd, ← eu, ← ed]
      have hJu : (stepNet w p y inp wk c).ends.Ju = w.Ju := rfl
      have hJd : (stepNet w p y inp wk c).ends.Jd = w.Jd := rfl
      have hku : (stepNet w p y inp wk c).ends.kuj k = -y.Qu_up k * (omegaGe (y.Qu_up k)
        + (1 - omegaGe (y.Qu_up k)) * (stepNet w p y inp wk c).ends.rho_u k)
        + (stepNet w p y inp wk c).ends.Gu k * ((stepNet w p y inp wk c).ends.rho_u k - 1) := rfl
      have hkd : (stepNet w p y inp wk c).ends.kdj k = y.Qd_dn k * ((stepNet w p y inp wk c).ends.tau_d k
        * omegaGe (y.Qd_dn k) + (1 - omegaGe (y.Qd_dn k)))
        + (stepNet w p y inp wk c).ends.Gd k * ((stepNet w p y inp wk c).ends.tau_d k - 1) := rfl
      rw [hJu, hJd, hku, hkd]
      by_cases h1 : w.Ju k = i <;> by_cases h2 : w.Jd k = i <;> simp only [h1, h2, if_true, if_false] <;> ring
    have hbs : (stepNet w p y inp wk c).bc i = false := hb'
    have hV : (stepNet w p y inp wk c).V = y.V := rfl
    have hJu : (stepNet w p y inp wk c).ends.Ju = w.Ju := rfl
    have hJd : (stepNet w p y inp wk c).ends.Jd = w.Jd := rfl
    have hn : (stepNet w p y inp wk c).ends.n = w.ix.NK := rfl
    have hQu : (stepNet w p y inp wk c).ends.Qu = y.Qu_up := rfl
    have hQd : (stepNet w p y inp wk c).ends.Qd = y.Qd_dn := rfl
    simp only [hbs, hV, hJu, hJd, hn, hQu, hQd, Bool.false_eq_true, if_false]
    constructor
    · intro h; linear_combination h - key
    · intro h; linear_combination h + key

/-- The matrices stay clean from step to step. -/
theorem cleanMats_step (hm : CleanMats w wk.mats) : CleanMats w (stepMats w p y inp wk c) := by
  refine ⟨⟨fun r q hrq h => ?_⟩, ⟨fun r q hrq h => ?_, fun h0 r => ?_⟩, ⟨fun r q hrq h => ?_, fun h0 r => ?_⟩,
      ⟨fun r q hrq h => ?_, fun h0 r => ?_⟩⟩
  · have := createA_eq (stepNet w p y inp wk c) y.dt wk.mats.A hm.A r q (Or.inr hrq)
    simp only [stepMats, assembleMats]
    rw [this]
    exact blockSpec_off _ _ _ _ _ _ _ _ _ _ hrq h
  · have := ctrlBlock_eq w.bc w.M (ctrls w.n_o w.Juo w.Jdo y.Qo) wk.mats.O hm.O r q (Or.inr hrq)
    simp only [stepMats, assembleMats, stepNet]
    rw [this]
    exact blockSpec_off _ _ _ _ _ _ _ _ _ _ hrq h
  · simp only [stepMats, assembleMats, stepNet, ctrlBlock, ctrls, h0, if_true]; exact hm.O.empty h0 r
  · have := ctrlBlock_eq w.bc w.M (ctrls w.n_w w.Juw w.Jdw y.Qw) wk.mats.W hm.W r q (Or.inr hrq)
    simp only [stepMats, assembleMats, stepNet]
    rw [this]
    exact blockSpec_off _ _ _ _ _ _ _ _ _ _ hrq h
  · simp only [stepMats, assembleMats, stepNet, ctrlBlock, ctrls, h0, if_true]; exact hm.W.empty h0 r
  · have := ctrlBlock_eq w.bc w.M (ctrls w.n_p w.Jup w.Jdp y.Qp) wk.mats.P hm.P r q (Or.inr hrq)
    simp only [stepMats, assembleMats, stepNet]
    rw [this]
    exact blockSpec_off _ _ _ _ _ _ _ _ _ _ hrq h
  · simp only [stepMats, assembleMats, stepNet, ctrlBlock, ctrls, h0, if_true]; exact hm.P.empty h0 r

end

end Pipedream.Quality
